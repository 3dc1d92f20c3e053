# Design of the formal model of toron

The model is written in Lean 4 (project `lean/`), read off the Python source in
`/repo/src/toron`. The code is never run: the only tie between the theorems and the
program is the reading recorded in the comment of each definition, which cites the
file and lines it models and says what was simplified.

## Layout

| directory | content |
|---|---|
| `Verif/Model/*` | executable model, function by function, exceptions as values (`Except Err`) |
| `Verif/Spec/*` | small independent specifications used in theorem statements |
| `Verif/Lemmas/*` | helper lemmas (not claims) |
| `Verif/Props/*` | the property theorems, with an `example` beside each showing that its hypotheses can be met |

`MANIFEST.json` maps property ids (`properties.jsonl`) to theorem names.
`seeded/LOG.jsonl` records the wrong programs the theorems were tested against.

## Trusted base

* Lean's kernel (4.33.0), and the axioms `propext`, `Classical.choice`, `Quot.sound`
  (at most; checked with `#print axioms`). No axioms of our own, no `sorry`,
  no `native_decide`, no `bv_decide`. Concrete witnesses are evaluated by the kernel (`decide +kernel`).
* Mathlib's definitions used in statements (ℚ, ℝ logarithm, `List.Perm`, `Finset`, ...).
* The reading of the Python code and of the SQL it sends to SQLite.
  SQLite's documented behaviour is modelled by hand: `UNIQUE`, `CHECK`, foreign keys
  (immediate, deferred, cascading, and *not enforced at all* on connections that never
  executed `PRAGMA foreign_keys = ON`), `AUTOINCREMENT`, `RAISE` in triggers,
  transactions with rollback, `SUM`/`GROUP BY`, identifiers in double quotes that name no column.

## Abstractions

* Except in `Model/Binary`, `Model/BinaryTranslate`, `Model/BinaryRead` and `Model/BinaryReader` (C106, C107, C109, C110, C115: 53 significant bits, unbounded exponents), floats are rational numbers (ℚ), or ℝ for logarithms: rounding, NaN and infinities
  are not modelled. Claims about sums hold exactly in the model and up to rounding
  in the program. Granularities are kept as the exact pair `(N, Π c^c)` and compared exactly.
* SHA-256 is not modelled: a fingerprint is its message (the bytes fed to the hash).
  Theorems saying "same fingerprint, hence same ids" therefore assume no SHA-256 collision.
  CRC-32 (index codes) is modelled bit by bit.
* Strings are lists of characters (`PyStr = List Char`). `str.upper`/`str.lower` are parameters (`CaseMap`)
  where they matter; SQLite's case folding of identifiers is ASCII.
* Generators are modelled by the list they yield; laziness is modelled only where it is the point.
* A reachable dataspace (`Reachable`) is what any finite sequence of public calls (`Op`, 33 of them, with arbitrary
  arguments, successful or not) makes of a new file. Further predicates restrict histories only where a property
  is false otherwise (`ReachableFk`: never reopened from a file, so foreign keys are on; `ReachableTidy`,
  `ReachableKeeping`, `ReachableOrderly`, `ReachableFresh`, ...; each is defined in `Verif/Spec`).
* Power failure (saving): what was not `fsync`ed may be lost or torn, renames are atomic in the directory.

## What is modelled

| source | model | not modelled |
|---|---|---|
| `partitions.py`, `formatters.py` | `Model/Partitions`, `Model/Format` | – |
| `selectors.py` | `Model/Selectors` (classes, matching, specificity, equality, `get_greatest_unique_specificity`, `GetMatchingKey`), `Model/SelectorText` (grammar, `parse_selector`, `__str__`) | Lark itself: its LALR parser with contextual lexer is modelled by recursive descent |
| `data_models.py` | `Model/Store/Tables`, `Repos` | abstract base classes |
| `data_service.py` | `Model/Store/Service`, `Disaggregate`, `Binary` (the same with rounding), `Granularity`, `Read` | floats as property values |
| `dal1/repositories.py`, `schema.py` (current), `label_manager.py`, `optimizations.py` | `Model/Store/*`, `Granularity`, `Store/OldSqlite` (`legacy_rename_labels`, `legacy_drop_labels`), `Model/Header` (marks of a file, `data_access.py`), `Model/Json` (texts of attributes, selectors, properties; checks) | SQL text; the tables and statements are modelled by their effect |
| `dal1/migrations.py` | `Model/Migrate`, statement by statement | – |
| `dal1/data_connector.py` | `Model/Save` (`to_file` with crashes), `Model/Uri` (names of files), `Model/Files` (several dataspaces and files), `Model/Concurrent` (locks between processes) | busy timeouts (a process gives up or not by the schedule), symbolic links |
| `space.py` | `Model/Store/Space`, `Ops`, `Read`, `Model/BinaryRead` (reading with rounding), `Select`, `Reader`, `OldIndex` (`insert_index_OLD`), `Reports` (counters and warnings), `Model/TableLoad` (how rows of tables become arguments) | other log messages, progress messages |
| `reader.py` | `Model/Reader`, `Model/BinaryTranslate` (`translate` with rounding), `Model/BinaryReader` (reading and translating with rounding, through several dataspaces) | pandas conversion |
| `graph.py` | `Model/Graph`, `Model/LoadMapping` (`load_mapping`), `Model/GraphListing` (`get_mapping`), `Model/WeightTable` (`get_weights`), `Model/Hints` (`normalize_filename_hints` on POSIX), `Model/MappingInfo` (what is logged after loading, `get_mapping_info_str`) | printing |
| `mapper.py` | `Model/Mapper` (`Mapper`), `Model/MappingCsv` (`get_mapping_value_position`), `Model/LoadMapping` (`Mapper_OLD`) | progress and warnings |
| `_utils.py` | `Hashing`, `BitFlags`, `Quantize`, `Tabular`, `Text`, `IndexCode`, `Edge` (`parse_edge_shorthand`) | readers of CSV and Excel files |
| `cli/command_mapping.py`, `cli/command_index.py`, `cli/command_quantity.py`, `cli/command_add.py`, `cli/command_rename.py`, `cli/command_update.py`, `cli/common.py` | `Model/MappingCsv`, `Model/IndexCsv`, `Model/QuantCsv`, `Model/Csv` (reading and writing of tables as CSV text, search for index codes, remapping of codes), `Model/IndexCode`, `Model/Files` (backups), `Model/Command` (the commands that edit one file), `Model/Init` (`init`) | argument parsing, printing |
| other `cli/*` | `Model/ArgList` (lists of names), `Model/Info` and `Model/InfoCommand` (`info`), `Model/CliEdit` (links, attributes, selectors), `Model/CommandLine` (what is done before `argparse`) | `argparse`, printing |
| `xnode.py`, `_dal.py`, `_schema.py` (legacy, the class is still exported) | the methods of `xNode` that change a node, with their data access layer, reading columns, records, structure and quantities, both disaggregations; on their own, the links that `xadd_edge` makes, `get_incoming_edge` (`Model/Legacy/ReadLink`), what removing columns does to links (`Model/Legacy/RemoveLinks`) and `translate` (`Model/Legacy/Edges`); renaming and removing columns and disaggregation with old versions of SQLite (`Model/Legacy/Rename`, `Model/Legacy/RemoveRebuilt`, `Model/Legacy/OldDisaggregate`) | files and modes, the other statements for old versions of SQLite, warnings, triggers |
| `_xmapper.py`, `xadd_edge` in `graph.py` (legacy) | `Model/Legacy/Mapper`, `Model/Legacy/MapTable`, `Model/Legacy/KeepLink`, `Model/Legacy/RebuildLink` | numbers as labels, progress and warnings |

## Plan per property

| id | modelled | how it is proved |
|---|---|---|
| C01 | `make_structure` over `Finset` label sets, `itertools.combinations` as sublists | membership iff union of a sublist; induction over the append loop |
| C02 | `find_minimal_partition_generating_set` incl. stable length sort | fold invariant: definitions so far generate all processed sets; irredundance from sortedness |
| C03 | `add_partition_definitions` on top of C01/C02 | corollaries, invariants over histories |
| C04 | `get_greatest_unique_specificity` incl. sort and groupby | sortedness of groups; permutation invariance |
| C05 | selector classes as an inductive tree | structural recursion, operator relations against string specs |
| C06 | `_get_comparison_key` | structural induction on keys |
| C07, C08 | `BitFlags` over bytes | bit-level lemmas, induction over 8-bit words |
| C09 | `SequenceHash` as a message builder | induction, fixed width big endian is injective |
| C10 | `splitmix64` on `BitVec 64` | xorshift and odd multiplication are invertible |
| C11, C12 | `quantize_values` over ℚ | sum accounting over the sorted list; sort is canonical as keys are distinct |
| C13 | `disaggregate_value` | case analysis + sum lemma |
| C14, C54 | `_disaggregate`, `__call__` | composition of C13 and C04 with structure lookup; C54 uses that equal granularity means no two records agree (C48) |
| C15, C16, C21–C38, C49, C53, C60, C61 | relational state machine `Store` with all public mutators | invariants over all operation sequences, effect of each call against a specification |
| C17–C20, C56 | link choice and translation | finite sums using the invariants |
| C39, C40, C58, C59 | mapper match tables | finite sums, characterisation of the join |
| C41, C42, C55, C57 | listings and statistics | counting, characterisation of the rows |
| C43 | reader grouping and pivot | finite sums |
| C44 | save as a step list over an abstract file system with crash at each step | invariant over prefixes and over histories of saves |
| C45 | migration as the list of its SQL statements over optional tables | sums over groups, effect of each statement, every crash point |
| C46 | index codes over `List Char`, CRC-32 over bits | digit parser lemmas, linearity of the CRC |
| C47 | reshaping | list induction |
| C48 | granularity over ℝ | log inequalities (monotonicity), counting |
| C50 | `format_identifier` | list induction over doubled quotes |
| C51, C52 | direct | direct |
| C62 | recursive descent reader, writer | induction over texts and selectors against an inductive grammar |
| C63, C64 | tables as lists of rows, index codes, mapper | induction over chunks and rows; composition of writing, reading, matching (C58) and joining (C40) |
| C65 | `insert_index` | exact effect of one row (four ways to find its record) and of one weight cell; induction over the rows |
| C66 | tables as lists of rows, `Floats` for the text of numbers | the rows read are those written (columns told apart by name); then C65 |
| C67 | tables as lists of rows, header and cells by column name | every written row is read back as the labels, attribute set and value it shows (attribute sets are kept in key order, are not empty and have different keys); then C32 |
| C68 | `load_mapping` and the older mapper: table as list of rows, matching level by level, both dataspaces | the rows read are those in the table, without domains; each row is one task as in C58; mappings as in C40; storing is `add_link` then `insert_mappings2` (C59) |
| C69 | the CSV writer and reader of Python (as state machines after `_csv.c`), line end translation of standard input | induction over cells and characters; a carriage return in a cell is always lost, a cell over 131072 characters cannot be read |
| C70 | `normalize_arg_list` on top of the CSV reader, the set of word characters a parameter | the writer of C69 inverted; invariant of the reader on one line; a blank before a quote is proved to break the quoting |
| C71 | `add_link`, `add_attribute`, `remove_link` and the selector part of `update_weight` on the stored dataspace | case analysis of the stored operations; counting for selectors; half-done links, orphan mappings, revived mappings and kept selectors are proved as violations |
| C72 | `make_sqlite_uri_filepath` with `quote` over UTF-8 bytes, and SQLite's `sqlite3ParseUri` as a state machine | the parser is shown to undo the quoting byte by byte; squeezing of slashes commutes with quoting and encoding; UTF-8 is injective; a null character is proved to cut the name |
| C73 | the regular expression of `parse_edge_shorthand`, as the ordered list of all ways in which it matches; `get_mapping_value_position` | the list of ways is exactly the set of links with that text; a reluctant name cannot stop early because what is left of it is neither blank nor the beginning of a colon or an arrow; concrete texts with blank names for the violation |
| C74 | `format_granularity` with floats as rational numbers: rounding half to even, zero padding, widths, the search for a precision | the text of a number is read back by an independent reader of decimal numbers; the error bound and the order follow from rounding; the loop stops at the first precision at which the map from values to texts is injective; a number below the last precision for the violation |
| C75 | `get_dataspace_info_text`, `sort_partition_definitions` on the store model; the date of creation is left out | the definitions that are shown are valid combinations (C38, C53), so that a structure row is found; the default weight group exists, by induction over the history; grouping a list sorted by dataspace; concrete histories for the violations |
| C76 | every operation of the store model | the table `Op.may` says which of 18 parts of a dataspace each operation is about; the other tables by the kinds of primitive changes an operation makes; names, selectors and descriptions of groups and links by following the recomputation of their state |
| C77 | `update_weights`, `delete_weights` on the store model; column checks of the input table are left out (C52) | induction over the rows with the weights of the group as a function of the record; a row that does not fit is skipped; the flag of the group by counting insertions and deletions |
| C78 | `update_index` on the store model | separate rules for a table of records (`Spec/Relabel`); induction over the rows: the index follows the rules, weights and mappings move with them; success from the invariants of the store, which keep proportions at most 1 |
| C79 | `insert_mappings`, `update_mappings` and `delete_mappings` by rows on the store model | which rows count is stated with ids, labels and bits (`Spec/MapLoad`); induction over the rows with the invariants of the mapping table; refreshing proportions is shown always to succeed |
| C80 | `xNode` with the parts of `_dal.py` and `_schema.py` it reaches, as functions from node to node or exception | one lemma says what merging amounts does to every sum; it is applied to weights and quantities with an invariant of all histories; the violations by witnesses |
| C81 | as C80 | invariants proved by induction over histories; the structure for histories of tidy calls; the violations by witnesses |
| C82 | as C80 | induction over the rows; the mark by comparing lists without duplicates; the violation by a witness |
| C83 | the six methods of `Space.lean` | the calls are run symbolically on a dataspace with the invariants on names, ids and default marks; the violation by a witness |
| C84 | `Model/GraphListing` over the elements of C41 | from C41 row by row; widths from the invariant that every record has a label per column; the violation by a witness |
| C85 | `dropIndexColumns`; the conditions in `Spec/DropColumns` by the label per column | induction over the columns: two label lists agree after the drop iff they agree in every remaining column; uniqueness from invariants; violations by witnesses |
| C86 | `staticDisaggregate`, `adaptiveDisaggregate` of the legacy data access layer; `Spec/LegacySplit` says who gets what of each quantity | the joins for a level are the takers of the quantities of this level; induction over the levels, for arbitrary conditions on attributes; totals by exchanging sums; violations in general and by witnesses |
| C87 | `Model/Files`: a world of files, directories and `DataSpace` objects; paths with `split`, `join`, `abspath` | frame lemmas for each action; invariant over all programs that every store in a file or an object is reachable; paths by splitting at the last slash; violations in general and by witnesses |
| C88 | `Model/Store/OldSqlite`: the helpers, which build the tables anew; `renameIndexColumns`, `dropIndexColumns` | the loop over renamings by induction over the mapping; the effect of the helpers compared with that of the methods, using the invariants of reachable dataspaces (unique names, references); violations by witnesses |
| C89 | All calls of `DataSpace`, reading and translation, in two units (`Spec/Units.lean`) | Simulation: every statement, service function and method commutes with the change of units; then induction on histories |
| C90 | Reading, output, translation and loading (`Spec/SameContent.lean`) | The rows read are a function of the set of (labels, attributes, value) and of the weights as a function; both lists are duplicate free, so equal membership gives a permutation; loading via the policy theorems of C32 |
| C91 | Processes, statements and locks of the rollback journal (`Model/Concurrent.lean`), with schedules that interleave the statements and interrupt them anywhere | Invariant: the database is the outcome of the log of committed calls, an open transaction with a lock has a snapshot that is still the database; witnesses for the methods that use more than one transaction |
| C92 | `insert_quantities` next to `insert_quantities2` | The row operations do not look at the registered attributes, so the run of the older method is that of the newer one in the dataspace with other registered attributes; then the theorem behind C32 |
| C93 | `insert_index_OLD` next to `insert_index` | The rows are compared one by one (a relation between the two counters), the updates of groups and links are computed exactly: after a new record without weights no group is complete; then the theorems of C65 |
| C94 | pairs of calls: insert_index/delete_index, rename_index_columns twice, add/drop of groups, links, columns | The exact effects of the first and the second call (C24, C65, C83, C88) are composed; references of mappings and weights keep the old rows untouched; witnesses for what cannot be undone |
| C95 | insert_weights, insert_quantities2, insert_index called twice | The exact result of a load (C32, C65) is a policy applied to the list of numbers for a target; the policies are shown to be compatible with concatenation, repetition and permutation of that list |
| C96 | All operations that take labels, reading, translating, printing, pivoting | Every repository and service function is shown to commute with the replacement of labels (a simulation), then methods, transactions and histories by induction |
| C97 | Reading (`space(...)`), translating, loading amounts | A successful call is a sum over the stored amounts of a contribution that is linear in the amount; finite sums are regrouped by target. Translation is linear row by row. Selection is a filter that commutes with both |
| C98 | `json.dumps`, `json.loads` as the program uses them, the functions registered with the database | Mutual induction over values: the scanner consumes exactly the text of a value and leaves the rest; characters by cases on the escape; digits by division. Sorting keys preserves what every path leads to |
| C99 | `normalize_tabular`, the reading of rows in the six methods | Refinement: each method on a table equals the operation on what the rows say (relation `Says…` between cells and arguments), by row-wise simulation of the folds with an invariant on the accumulator and the label lengths. Exceptions: concrete tables |
| C100 | `create_file` in two steps (look, then save) over the model of files of C87, `os.path.splitext` | Stem: characterised by the last dot, both directions. Creation and failure from the frame theorems of saving. The race: a concrete schedule |
| C101 | no new code: reading and translating as in C14, C17 | Regions as label patterns; a location inside the region matches only records of the region (transitivity of matching), one outside matches none; sum over the shares of C14 |
| C102 | no new code: reading and translating as in C14, C17 | Rounding keeps the sign (the increment is only used if the total has the sign of the items); values of one sign do not exceed their sum; composed along reading and translating |
| C103 | `warn_if_issues`, the counters and warnings of the eight methods (`Model/Store/Reports`) | Specification: one relation per method saying what a row under each heading did, chained row by row; induction over the rows; skipped rows removed one by one. Violated when `update_index` merges a record with itself |
| C104 | `Reader.translate` twice (`Model/Reader`) | Specification: where a current link sends a record (`Sends`, `SendsVia`). Each row is split into rows that add up to it (C17) at records it is sent to; summed over both legs |
| C105 | `Edit.plan`, `World.command` (`Model/Command`) on the machine of C87 | Specification: the call (or change) each command stands for (`Edit.Meant`). The calls are all or nothing (C26); those of `update weight` cannot fail after the first; the backup is a save to another file (C87) |
| C106 | `fl` (rounding to 53 bits), `disaggregateValue`, `quantizeValues` with it (`Model/Binary`) | Each operation changes a result by a factor between 1 - u and 1/(1 - u), u = 2^-53; factors multiply, sums of non-negative numbers and quotients keep such factors. Whole numbers below 2^53 are exact, so the rounding to whole numbers is that of C11 with a total missed by less than one |
| C107 | `proportions`, `translateRow`, `translateAlong` with rounding to 53 bits (`Model/BinaryTranslate`) | Factors near one as for C106, multiplied over the links by induction; parts of one quantity have the same sign, so that their sum keeps the factor. Whole numbers: C106 for each row, with the invariant that no part exceeds its quantity |
| C108 | `quantizeValues` (`Model/Quantize`) and `disaggregateValue` (`Model/Disaggregate`) | The result adds to the whole parts a bonus between 0 and 1 that does not increase along the items sorted by fraction; so a larger part with the same whole part has the larger fraction and not the smaller bonus. The share of a record is the same factor for all quantities. More-gives-less: witness |
| C109 | the functions of `Model/Binary` and `Model/BinaryTranslate` | Rounding to 53 bits is monotone (`fl_mono`: within a binade because rounding to a whole number is, across binades because the power of two between them is kept); all steps are compositions of monotone functions, by induction along links. Rounding to whole numbers: the bonus of C108. Close weights: witness |
| C110 | `callF`, `disaggregateF`, `disaggOneF` (`Model/BinaryRead`), on the store | Relational lemma for the nested loops: with rounding and without, the results of each quantity are related or the errors equal (C106), and the relation is closed under concatenation. Totals from C14 and the fact that all parts of a quantity have its sign |
| C111 | the tables `edge` and `relation` of an in-memory legacy node, `add_incoming_edge`, `edit_incoming_edge`, `translate`, `XQuantityIterator` (`Model/Legacy/Edges`); `get_incoming_edge`, hashes and mapping levels are not modelled | Invariant over all calls (keys unique, at most one default, proportions those of the current values); closed form of the row-by-row update of the default flag; sums regrouped |
| C112 | `find_matching_weight_groups` and the dictionary written to the log (`Model/Store/UsedWeights`) | both places choose the group that applies (C54); a selector depends only on the attributes it refers to; counterexamples with a domain and with selectors that match nothing |
| C113 | `find_matches`, `get_relations`, `weight_records` and `xadd_edge` of the legacy class (`Model/Legacy/Mapper`) | induction over the groups of labels; grouping keeps sums; without overlapping the level belongs to the record, so no relation replaces another (C111); counterexamples for two weightings, weights of zero, overlapping levels, rows that are swallowed, and half of the links |
| C114 | `normalize_filename_hints` with `os.path.commonpath` and `relpath` for POSIX (`Model/Hints`), looking up links | splitting undoes joining; the common beginning is removed from both paths; counterexamples for paths that differ by the extension, the same file, backslashes, and references with the extension |
| C115 | reading, `translate` and `>>` computed with 53 significant bits, with the choice of links by attributes and the proportions from `refresh_proportions` (`Model/BinaryReader`) | the exact and the rounded computation are run side by side, with the number of roundings as the invariant; exact translation conserves totals and absolute totals; whole numbers: the invariant is that values are whole, bounded, and have the same totals. Left out: correction of `sum` in Python 3.12, `SUM` of SQLite in the output |
| C116 | `write_to_stdout` of the command `info` and `get_loaded_attributes` (`Model/InfoCommand`); file name, width and date are given | invariants over histories: every attribute group belongs to a quantity, and every attribute in use is registered (in histories that only add attributes); otherwise the command fails with an error that is not caught, which is shown with two histories |
| C117 | `get_weights` with header, domain and labels (`Model/WeightTable`), loaded by the model of `insert_weights` for tables (C99) | the rows say what the listing says (C99), then the policies (C32); the values for a record are those of its only row. Violated for a group with the name of a label column |
| C118 | `_preprocess_args` and the check for an empty command line (`Model/CommandLine`); `argparse` itself is not modelled: the specification says which words are the first two that are not options | the words before the first request for help, split into options and words. Violated for the help about a file that does not exist (the name is taken as a command), and for a file after `--` (it gets no command) |
| C119 | `_log_load_mapping_stats`, `get_mapping_info_str` (`Model/MappingInfo`) on top of the statistics of C42 | each number is the number of records (C42), a message is there if it is not zero. Violated after mappings to records that do not exist were accepted (a mapping is called verified although a record is not reached); the undefined record is counted; a source without a file is called `None` |
| C120 | `get_backend_from_path`, the marks set by `create_node_schema`, `is_supported_schema` (`Model/Header`); of the format of SQLite only the header | slices of the first 72 bytes against the file as a concatenation; four bytes determine a number below 2^32. Violated: `is_supported_schema` raises for databases whose application id is shown with a minus sign |
| C121 | `get_incoming_edge` and the SQL functions it uses (`Model/Legacy/ReadLink`) | sums over the left join are sums over the relations; groups are disjoint. Violated: with `reified=True` columns after the eighth are not named |
| C122 | the statements on `relation` in `_coarsen_records_make_sql`, the change of mapping levels in `_remove_index_columns_execute_sql` (`Model/Legacy/RemoveLinks`); making the links anew is C113 and C121 | membership and sums over the merged rows; a sequence of updates is a map of levels. Violated: a level may be changed twice; relations with different levels to records that are merged make the removal fail |
| C123 | `get_relations` with mapping levels, `_add_edge_relations` (`Model/Legacy/KeepLink`), on top of the models of C113 and C121 | a match is shown as the labels of its row come back (bits of the level against columns); sums over relations are sums over rows; parts add up to one (C113). Violated: labels that fit just one record come back complete; with overlapping matches or weights of zero values are lost or doubled (C113) |
| C124 | `xMapper.__init__`, `xadd_edge` from the table on (`Model/Legacy/MapTable`); the number that SQLite finds in a text is a parameter | the column by C73; induction over the rows; composition with C113 and C123. Violated: a text that is not a number is taken as a value; rows with missing or surplus cells after the value are not noticed; the link keeps blanks around its name |
| C125 | `get_raw_quantities`, `delete_raw_quantities` (`Model/Legacy/RawQuantities`); the order of the rows is not modelled | the conditions are divided by induction, with an invariant on the two lists together; each quantity has one location and one attribute set by the invariant of reachable nodes. Violated: of two keys that stand for the same column the first is dropped, so that more is deleted than asked for; an attribute called `value` is not in the row |
| C126 | `index_records`, `index_records_grouped` as a state machine over calls of `next` (`Model/Legacy/Groups`) | invariant over all sequences of calls (given and left conditions are those of the call; a group that was not read is fresh), then induction over the reading of one group. Violated: the groups share one cursor, so groups read in turns give records of each other, and groups collected in a list cannot be read |
| C127 | the loop that makes links again in `_remove_index_columns_execute_sql`, `assign_matches_by_id` (`Model/Legacy/RebuildLink`), on top of the models of C113, C121 and C123 | numbered rows correspond to the rows that were shown (C121); values by C123; totals because parts add up to one (C113). Violated: the weighting has to be called like the link, otherwise the removal fails; rows that fit more than 12 records are lost |
| C128 | `add_index_columns` (`Model/Legacy/Node`) with `get_incoming_edge` (`Model/Legacy/ReadLink`) and the stored levels (`Model/Legacy/KeepLink`) | the join with the widened records is the old join, widened; grouping keys are widened by an injective function, so groups are the same; a level that is stored leaves out a column because records have different labels. Violated: the text of the columns that were not given leaves out the ninth column |
| C129 | `rename_index_columns` in both versions (`Model/Legacy/Node`, `Model/Legacy/Rename`) | induction over the columns that were renamed, with names that differ in lower case; copying by name is the identity for such names. Violated: names cannot be exchanged with new versions; no columns at all fail with old versions; names with quotes are read again, and another column is renamed; numbers of records that are gone are given again with old versions |
| C130 | `DataAccessLayerPre35.remove_index_columns` (`Model/Legacy/RemoveRebuilt`) beside `Model/Legacy/Remove` | the steps commute with changing the number that ids continue with; the check of foreign keys passes by the invariant of all histories. Violated: names that need quotes can be removed with old versions only; numbers of merged records are given again with old versions |
| C131 | the two statements of `DataAccessLayerPre25` (`Model/Legacy/OldDisaggregate`) beside `Model/Legacy/Disaggregate` | the fractions are equal if the weights suffice for each quantity; induction on the levels for the adaptive method, where no piece is on the undefined record. Violated: with old versions a part is lost if the weights are zero and the place contains a record without weight (such as the undefined one), or if a record without weight got a piece of an earlier level |


## Where the code differs from a property

Properties found false of the code are stated as negations with a concrete witness (`..._violated`), and the true
part is kept as a `..._partial` theorem. The witnesses are reachable by public calls.

| theorem | what happens |
|---|---|
| `C03_violated` | After a column has been dropped and another one has been given its name, adding a partition can make a valid combination invalid. |
| `C04_order_violated` | of the equal selectors `[A][A]` and `[A][A][A]` `GetMatchingKey` keeps the first, so the order in which they are listed decides between the default (0) and key 1. |
| `C05_nested_is_violated` | `:is(:is([A], [B]))` is accepted by the grammar but any use of it fails, because re-initialisation makes the inner selector contain itself. |
| `C06_specificity_violated` | `[A][A]` and `[A][A][A]` compare equal, but their specificities are (2, 0) and (3, 0). |
| `C06_unicode_violated` | with `ignore_case` the values `k` and U+212A compare equal (by lower case) but match differently (by upper case). |
| `C100_race_violated` | Violated: the command looks first and saves later. A file that another program has made in between is replaced, although the command never replaces a file that it sees. Here another program saves the dataspace b as `/n` in between. |
| `C103_violated` | by `update_index` with merging if a row gives a record the labels that it already has: the record is taken for a duplicate of itself and deleted, and the row is reported as updated. |
| `C105_violated_backup` | C105 is violated: a command that fails has replaced the backup of the command before it. A label is added to `/x` with a backup, and a second command with a backup changes nothing since it names a group that is not there; the backup now has the label too, and the way back to the file without it is lost. |
| `C105_violated_crash` | C105 is violated: some mistakes of the user end in an exception that is not caught instead of an error message: a label is moved by no place (`--move-left 0`), a label is added that differs from one of the file only in the case of its letters. (Moving a label that is not there, or adding one that is, ends with a message.) |
| `C106_violated_fraction` | for numbers that are not whole: `6.000000000000001` (the next float after 6), split among six records of weight 4.1 each and rounded to whole numbers, fails. Each part is computed as a little less than one, so that six units and a rest have to be given to six records; there is no seventh record for the rest. With exact numbers the parts are a little more than one and nothing fails. |
| `C106_violated_large` | for large numbers: `9007199254740949` (less than `2 ^ 53`, a whole number that a float holds exactly) with the weights 4, 2, 4 is split and rounded to whole numbers that add up to two more. |
| `C106_violated_sum` | without rounding to whole numbers: one, split evenly among three records, gives parts that do not add up to one. |
| `C106_violated_ties` | for ties: 21 with the weights 5 and 9 has the exact shares 7.5 and 13.5. Ties are meant to be resolved by a hash of the record, which gives 8 and 13; but the first share is computed as a little less than 7.5, so that it is 7 and 14. |
| `C107_violated_fraction` | for numbers that are not whole: `6.000000000000001` (the next float after 6), translated evenly to six records and rounded to whole numbers, fails, if the value of each mapping is 4.1. |
| `C107_violated_large` | for large numbers: `9007199254740949` (less than `2 ^ 53`), translated to three records with the values 4, 2, 4 and rounded to whole numbers, becomes two more. |
| `C107_violated_sum` | without rounding to whole numbers: one, translated evenly to three records, gives parts that do not add up to one. |
| `C108_violated_more_gives_less` | with rounding, a larger quantity can give a record less. Three records have the weights 6, 6 and 2. A quantity of 10 gives the third record 2, a quantity of 11 gives it 1. |
| `C109_violated_close` | C109, the stronger claim of C108 is violated with floating-point numbers: the second record has a larger weight than the first, but the parts before rounding are equal, and the first record gets one and the second nothing. |
| `C111_violated_default_again` | **C111** (violated) A link cannot be made the default again once a link added after it has become the default: SQLite checks after every row that only one of them is. |
| `C111_violated_default_unknown` | **C111** (violated) Making a link the default whose name is wrong raises nothing, and leaves no default link, without which nothing can be translated. |
| `C111_violated_lost` | **C111** (violated) A quantity is lost, and nothing is raised, if the link has no value for its record. |
| `C111_violated_no_default` | **C111** (violated) Without a default link nothing is translated, even if selectors of links match all the attributes. |
| `C111_violated_no_selectors` | **C111** (violated) It is so for a link without selectors that is alone. |
| `C111_violated_selectors` | **C111** (violated) Nothing can be translated if one of the complete links from the node has no selectors. |
| `C111_violated_stuck` | **C111** (violated) A record that does not exist is only noticed at the end of the transaction, which then stays open: the link is there, and no link can be added or edited any more. |
| `C111_violated_twice` | **C111** (violated) The values for a pair of records that is given twice are not added: the first of them is lost. |
| `C112_violated_domain` | The claim without the condition is false: with a weight group for `[domain="d"]` the report of a dataspace with the domain `d` says that only the default weight group is used, but the amount 20 is split in proportion to the weights of the other one. |
| `C112_violated_nothing_read` | If selectors are given and match nothing then nothing is read, but the report names weight groups as if everything had been read. |
| `C113_violated_half` | **C113 violated** If the second link cannot be added, the first one stays: the call fails and one node is changed. |
| `C113_violated_levels` | **C113 violated** If matches may overlap, only the value of one level is stored for a pair of records: of 10 and 3 only one is left. |
| `C113_violated_swallowed` | **C113 violated** Without overlapping, a row that fits several records is lost without an error if all of them are matched with other rows. |
| `C113_violated_weights` | **C113 violated** With two weightings, a row is not divided by the weighting that is named: the weights of all weightings are used. Here the named weighting gives the first record everything, but it gets 4/8 and the other one 4/8. |
| `C113_violated_zero` | **C113 violated** If the weights of all records that fit are zero, each of them gets all of the row: its value is doubled. |
| `C114_violated_backslash` | **C114 violated** On POSIX a backslash may be part of a name: two different files get the same name. |
| `C114_violated_extension` | **C114 violated** Two files whose paths differ only by the extension get the same name. |
| `C114_violated_reference` | **C114 violated** Functions that are given a reference to a link do not find it by the name of the file: the extension was removed when the name was recorded, and it is only added, not removed, when the name is looked up. |
| `C114_violated_same` | **C114 violated** A file that is linked to itself is named `.`, which says nothing about it. |
| `C116_violated_old` | The same after `insert_quantities` was used with an attribute that is not registered, which it accepts. |
| `C116_violated_replaced` | If the registered attributes are replaced after quantities were loaded, `info` fails although nothing else is wrong: the summary itself can be made. |
| `C117_violated_name` | Nothing keeps a weight group from having the name of a label column. Then the table has two columns of that name, and it cannot be loaded. |
| `C118_violated_no_command` | Violated: a command line that names a file and no command does not get the command `info` if there is anything else in it, such as the mark `--` for the end of the options. |
| `C118_violated_no_file` | Violated: a file name for which there is no file, with a request for help, is taken as a command (and the program complains about an unknown command instead of printing its help). |
| `C119_violated_none` | Violated: for a source without a file the description says that records do not exist any more in `None`. |
| `C119_violated_undefined` | Violated: the undefined record is counted, so that a link without any mapping is described as matching one record of each side. |
| `C119_violated_verified` | Violated: in a dataspace that was opened from a file a mapping to a record that does not exist is accepted, and it hides that a record is not reached: the mapping is called verified. |
| `C11_mixed_signs_error` | when the total differs from the sum: the remainder may exceed the number of items, and then the generator dies with `RuntimeError`. |
| `C11_mixed_signs_violated` | for mixed signs: the items add up to the requested total 0.3 but the output adds up to 2.3 (the increment takes the sign of the total, not of the remainder). |
| `C120_violated_negative` | **C120 (violated).** The check of an open database (`is_supported_schema`) should say no to every other database. If the application id of a database is shown with a minus sign then it raises `OverflowError`. |
| `C121_violated_ninth` | **C121 (violated).** With nine columns the ninth is not named although no label was given for it. |
| `C122_violated_chain` | **C122 (violated).** The first column is removed. Both levels could be kept, and `preserve_edges=True` was asked for; but the relation that was given with the column `c` now has the level of the column `b`: it is changed twice. |
| `C122_violated_mixed` | **C122 (violated).** A record of the other node is mapped to a record exactly and to another one as a part of a row that left labels out. When these two records are merged, the removal fails with an error of the database. |
| `C123_violated_filled` | **C123, violated.** A county with one place comes back as that place: the column that was left empty is filled. |
| `C124_violated_name` | **C124, violated.** Blanks around the name do not matter when the column is looked for, but the link is stored under the name with the blanks. |
| `C124_violated_ragged` | **C124, violated.** A row that is longer or shorter than the header is not noticed if only cells after the value are concerned: it is read; missing cells are taken as empty, so that the row refers to all records with the other labels, and cells beyond the header are ignored. |
| `C124_violated_text` | **C124, violated.** A value that is a text is never refused, even if it is not a number: whatever the text is, the row is taken and counts as the number that SQLite finds at its beginning. |
| `C125_violated_keys` | **C125, violated.** Two keys that stand for the same column: the first condition is dropped. No quantity is in the county `y` and also in the county `x`, but the quantities of the county `x` are all deleted. |
| `C125_violated_value` | **C125, violated.** An attribute called `value` is a condition that can be given and is met, but the row that is read does not have it: the quantity is in its place. |
| `C126_violated_end` | **C126, violated.** Groups that are collected in a list first cannot be read any more. |
| `C126_violated_turns` | **C126, violated.** Two groups that are read in turns: the group of the county `x` gives a record of the county `y`, and its second record is missing. |
| `C127_violated_limit` | **C127, violated.** A row that fits more than 12 records is lost without an error: nothing is left of the total of the record of the other node. |
| `C127_violated_name` | **C127, violated.** A link can only be made again if there is a weighting that is called like the link: otherwise the removal of the columns fails, although the link was made with another weighting that is still there. |
| `C128_violated_fields` | **C128, violated.** The text of the columns that were not given does not name all new columns: the ninth column of a node is left out, although no label was given for it. |
| `C129_violated_empty` | **C129, violated.** A node without columns can be given a function with a new version of SQLite, and nothing happens; with an old version the call fails. |
| `C129_violated_ids` | **C129, violated.** With an old version of SQLite, the number of a record that is gone is given to a new record after columns were renamed; with a new version it is not. |
| `C129_violated_names` | **C129, violated.** If the name of a column has quotes, another column is renamed instead of it: the names in the table are normalized again. |
| `C129_violated_swap` | **C129, violated.** Whether names can be exchanged depends on the version of SQLite: columns are renamed one by one with a new version, so the first name is taken. |
| `C130_violated_ids` | **C130, violated.** With an old version of SQLite, the next record gets the number of a record that was merged with another one; with a new version it gets a number that was never given. |
| `C130_violated_names` | **C130, violated.** A column whose name needs quotes can be removed with an old version of SQLite, and not with a new one. |
| `C131_violated_adaptive` | **C131, violated.** If a weighting has no weight for a record, which got a part of another quantity, then with an old version of SQLite a part of the quantity is lost in adaptive disaggregation: 4 of 6 units are missing, though both weightings are flagged complete and the weights are not zero. |
| `C131_violated_zero` | **C131, violated.** A quantity without labels is for all of the node, and the undefined record counts as one of the records in its place. With an old version of SQLite a part of such a quantity is lost if the weights are zero: 4 of 12 units are missing, though the weighting is complete. |
| `C15_negative_violated` | A mapping from a source record with a negative id never gets a proportion. |
| `C15_proportions_violated` | After reopening, a link is dropped (its mappings stay), a record is deleted (the proportions of the dropped link are not refreshed), and a new link takes over mappings whose proportions add up to 3/4. |
| `C17_stale_violated` | for a reader that is older than a deletion of a source record: if the link was made anew since, the translation succeeds and the values of the deleted record are lost (here 7 of 109). |
| `C18_stale_violated` | when a complete link with selectors is older than a record of the source: the quantities of that record disappear (only the default link is compared with the source). |
| `C18_undefined_violated` | for the undefined record: its quantities disappear. |
| `C20_find_ambiguous_violated` | Otherwise it may find links of several dataspaces. |
| `C24_other_links_violated` | Deleting a record that is reached by one link only changes the proportions of another link. |
| `C25_noop_merge_violated` | With merging enabled, updating a record to the labels it already has succeeds and removes the record. |
| `C25_noop_rejected_violated` | Updating a record to the labels it already has is refused. |
| `C26_reify_violated` | `reify_mappings` stops half way when two mappings of the same pair become equal: some mappings have been changed, others not. |
| `C27_drop_link_violated` | After reopening, `drop_link` leaves the mappings in place and the next link added takes them over. |
| `C27_drop_weight_group_violated` | After reopening the weights stay, and a new group takes them over. |
| `C28_references_violated` | After reopening, dropping a weight group leaves its weights behind: they refer to no group. |
| `C34_violated_header` | So that it fails whenever there is something to list. |
| `C34_violated_reopened` | After the dataspace was reopened, the deletion removes locations but not their quantities: the listing is empty although the unmatched quantities are still stored. |
| `C34_violated_undefined` | The quantity of a location that matches only the undefined record is listed as one without a record, and is deleted, although the location does match that record: the insertion accepts it as matching, and reading the dataspace returns it for that record. |
| `C37_violated` | Then the display order lists a name that is no column; and reordering always fails. |
| `C38_violated` | Dropping a column leaves definitions that name it, and none that generates the columns left. |
| `C41_flag_violated` | for a link that was marked complete by hand: records of the target without a mapping are not listed. |
| `C42_dangling_violated` | for dataspaces opened from a file: a mapping to a record that does not exist is accepted, and the number of missing records is negative. |
| `C43_header_violated` | for headers as a whole: a pivoted column can have the name of a label column. |
| `C44_late_error_is_masked` | When only the last system call (synchronising the directory) fails, the caller gets an error about a missing file, although the destination has the complete new contents. |
| `C44_violated_interrupted` | A temporary file is left behind when the save is interrupted by something that is not an `Exception` (such as `KeyboardInterrupt`). |
| `C44_violated_without_fsync` | Without `fsync` a power failure can leave a destination that has neither the previous nor the new contents, although the save had returned normally. |
| `C45_domains_may_coincide` | Different domains of old files can become the same domain. |
| `C45_text_values_are_lost` | A text in the value column of an old file is silently replaced by a number: opening the file succeeds, and two files that differ in that text become the same file. |
| `C46_violated_changed_id` | Two ids of different blocks can share their checksum: the code of the id 0 with the id replaced by 6814697335 is accepted. |
| `C46_violated_foreign` | A code of one dataset can be accepted by another one: two unique ids with the same checksums. |
| `C46_violated_test` | The test whether a text is an index code is not total: for a number of more than 64 bits it raises `struct.error`, although the text is no code of any id. |
| `C47_violated_collision` | The name of the new column is not checked: a label column of that name is overwritten, so that two different tables have the same long form. |
| `C47_violated_empty` | A table without rows raises an error instead of giving a table without rows. |
| `C47_violated_keys` | Rows that lack a key of the first row get an empty cell, and rows with further keys lose them. |
| `C49_violated_drop` | `drop_index_columns` leaves the granularities as they were: here all records have the same label in column C, and the granularity stored for C, which was that of B and C together, is not zero. |
| `C49_violated_replace` | `insert_index` with `on_label_conflict='replace'` changes labels of a record and leaves the granularities as they were: here all records have the same label in column A, and the granularity stored for A is not zero. |
| `C51_violated_empty` | A level without columns leaves every column open; none is listed. |
| `C51_violated_ninth` | With nine columns, a level of the first column only: the ninth column is ambiguous but not listed. |
| `C53_violated` | There {B} is valid although it is neither a union of definitions nor the rest of one. |
| `C54_violated_dash` | If a record has the label `-`, a quantity with this label goes to the undefined record as a whole, although the other record matches it and has the weight 3. |
| `C54_violated_stale` | After labels were replaced while inserting, a quantity goes to the first of two matching records as a whole, although the weights are 3 and 1. |
| `C55_violated_mappings` | But mappings to the undefined record can be stored. |
| `C55_violated_mappings_never` | No listing of mappings shows the undefined record, by whatever link and criteria. |
| `C55_violated_quantities2` | Two different attribute sets look the same in the newer listing if their attributes are not registered. |
| `C55_violated_unknown_column` | A criterion on a column that does not exist is no error: it selects everything if the value happens to be the name of the column, and nothing otherwise. |
| `C59_blank_violated` | for a row without labels on the target's side: it is matched with every record, and the data counts as fully matched, but loading it stores nothing. |
| `C61_violated` | After a column has been dropped no column can be added: neither a new one nor the old one. |
| `C62_violated_nested_compound` | **C62 violated.** A compound is written inside `:is()` without parentheses, which cannot be read. |
| `C62_violated_reprint` | **C62 violated.** The value of `[A='\"']`, a backslash and a double quote, is written as `[A="\\""]`, which cannot be read. |
| `C62_violated_unquoted` | **C62 violated.** The grammar allows values without quotes, as in `[A=x]`, but no text that has one is ever accepted: the value is lost on the way to the selector, and building the selector fails. |
| `C63_violated_name` | if a label column has the name of the link: in a table laid out as the program itself writes it (index code, labels, link, index code, labels) the label `7` is taken for the value, which is 10. |
| `C63_violated_order` | if labels look like index codes: whether a table can be read depends on the order of its rows. |
| `C64_violated_level` | for ambiguous levels: the stored level says that column `B` was not known, the level read from the written table is that of all columns. |
| `C64_violated_limit` | if as many records may be matched as there are: the rows for unmapped records, which have empty cells for the other side, are matched with all its records, and the result maps the records 2 and 3 that were not mapped, with the value zero. |
| `C64_violated_name` | if the link has the name of a label column: the table cannot be read. |
| `C64_violated_self` | for a mapping of a dataset onto itself: both columns of index codes belong to both sides, and the table cannot be read. |
| `C66_violated` | The output of `toron index` for a dataspace with a weight group cannot be loaded again, neither into the same dataspace nor into one of the same layout, whatever the policies: it contains the undefined record with the weight 0, and a weight for the undefined record is refused. |
| `C66_violated_swapped` | If two records have exchanged their labels since the table was written, it cannot be loaded to undo this: the first of them cannot get its labels back while the other still has them. |
| `C67_violated_lost` | A quantity whose attributes are not registered (any more) has a row in the table, without attributes. Loading the table skips it and reports success. |
| `C67_violated_mixed` | Two quantities whose attribute sets differ only in an attribute that is not registered cannot be copied: with `abort` the table is refused although the other dataspace is empty, and with `sum` they become one. |
| `C67_violated_name` | A label column may be named `quantity`. Then the table has two columns of this name, and the value is read as the label: with `ignore`, loading the table into the same dataspace is refused, or stores the quantity a second time under a wrong label. |
| `C68_violated_both` | Loading in both directions is not atomic: if a link of that name exists on the left side, the call fails, but the link and its mappings stay in the right dataspace. |
| `C68_violated_column` | A table with a column that the dataspace does not have is accepted. Its rows are not matched, but if a label is the same as the name of the column, they are matched as if the column was not there. |
| `C68_violated_empty` | A row that fits no record is left out, also if the dataspace has no records at all. But if the table then has rows at two levels, the call fails. |
| `C68_violated_negative` | If the mappings are refused (here for a negative value), the call fails, but a link without mappings stays in the dataspace. |
| `C68_violated_unnamed` | With an empty name, which is accepted, the mappings may be added to another link than the new one. |
| `C69_violated_coincide` | Two different tables are read as the same one: nothing tells a label with a carriage return from one with a line feed. |
| `C69_violated_cr` | A printed table whose cells contain a carriage return is never read as the same table: standard input translates the line ends within the quotes, while standard output writes them as they are. |
| `C69_violated_long` | A cell of 131073 characters, a long label or name, is printed but can not be read. |
| `C70_violated_blank` | A blank before a quote takes the quote its meaning: a list written in the usual way, with a blank after the comma, is taken apart within the quotes. Blanks do not matter for names without quotes (`C70_plain`). |
| `C71_violated_again` | A selector that is added while it is there is not gone after it is removed in the same command: only one of the two is taken out. |
| `C71_violated_half` | `toron add link` in both directions is not all-or-nothing: if only the first file has a link of that name, the command fails, but the second file has got the new link. |
| `C71_violated_mappings` | `toron remove link` leaves all mappings of the link in the file, although the link is gone: a file opened by a command checks no foreign keys, so that nothing is deleted with the link. |
| `C71_violated_repeated` | Selectors with line feeds can become equal to others, and the new selectors then repeat them. |
| `C71_violated_revived` | A link that is added after another one was removed may get the mappings of that one: it has the same number, and the mappings were left in the file. |
| `C71_violated_unnamed` | `toron remove link` with an empty name removes the default link, although no link has that name. |
| `C72_violated_null` | Of a path with a null character SQLite opens the file that is named before that character: another file than the one that was named, with the same options. |
| `C73_violated_blank` | **C73** (violated) The name of a link, or of a file, can be left out: a single blank is then read as the name. |
| `C73_violated_direction` | **C73** (violated) The arrow in the header is not looked at when mapping data is loaded: the column is the same whichever way the arrow points, and whatever files and selector are named. |
| `C74_violated_close` | **C74** (violated) A granularity that is closer than that to zero makes the function fail. |
| `C75_violated_default` | After a weight group that was dropped is made the default, there is no summary. |
| `C75_violated_dropped` | After a column is dropped, there may be no summary: the stored definitions still name the column. |
| `C75_violated_hint` | Links from two dataspaces that were recorded with the same file name cannot be told apart: their lines are the same. |
| `C78_violated_name` | **C78** (violated) If a label column has a name that needs quotes, labels cannot be corrected at all. |
| `C79_violated_delete` | The property fails: a row with the source record, the record, its labels and the value of an exact mapping does not delete it if a mapping of another level comes first. |
| `C79_violated_first` | The property fails: a correction is accepted that neither adds a mapping of its level and leaves the two mappings alone, nor replaces both of them: it changes the level and the value of the first one. |
| `C79_violated_levels` | The property fails: corrections of both mappings, with correct labels and with the levels the mappings have, are refused, because each row is applied to whichever mapping between the two records comes first. |
| `C80_violated_duplicates` | **C80, violated.** When a place has two quantities with the same attributes, each of them is set to the sum: the total of the county was 35 and is 70 after removing the column that tells its places apart. |
| `C80_violated_locations` | **C80, violated.** A removal that merges no records still fails when two locations become equal, although merging them is what removing does to locations when records are merged as well. |
| `C80_violated_names` | **C80, violated.** A column whose name needs quotes in SQL blocks the removal of every other column. |
| `C80_violated_undefined` | **C80, violated.** A place whose remaining label is the dash is merged into the undefined record: after the removal no record of the node says that there was a place `('-', '2')`, and a place with a weight makes the removal fail instead. |
| `C81_violated_blanks` | **C81, violated.** Names with surrounding blanks are accepted and normalized, but the structure is made from the names as they were given: the columns are `A` and `B` and no level contains `B`. |
| `C81_violated_early` | **C81, violated.** Partition definitions are accepted before there are columns, and then no column can be added any more. |
| `C81_violated_rename` | **C81, violated.** Renaming a column leaves its old name in the partition definitions, and then no column can be added any more. |
| `C82_violated_stale` | **C82, violated.** The flag is not touched when records are added later: a weighting is still flagged complete although a record has no weight in it. |
| `C83_violated_drop` | Once the default weight group has been dropped no other weight group can be dropped: the call fails with a `KeyError` and the group stays, until a default is set again. |
| `C84_violated_name` | The name of the link may be left out, but then the call always fails, even if there is only one link between the dataspaces and it is the default. |
| `C85_violated_levels` | C85 fails for mappings: levels are not adjusted. Dropping the first column turns a mapping for the combination {B} into one for the combination {C}, and an exact mapping (for all columns) into one that is not exact. |
| `C85_violated_partition` | C85 fails for partitions: a column cannot be dropped, even if there is no data at all, if two valid combinations differ only in that column. |
| `C86_violated_lost` | **C86, violated.** A quantity whose place has no weight is left out without an error, although its labels are those of a record and the only weighting is flagged complete: 100 of 136 units are missing in the result. |
| `C86_violated_selectors` | **C86, violated.** A complete weighting without selectors makes every disaggregation raise `TypeError`, with every condition; adding weights without giving selectors creates one. |
| `C87_violated_backup` | Violated: when one of the files is named like the backup of another one, making backups before a command destroys it. With `/x` and `/backup-x` both bound, as by a command with the option `--backup` that is given both, the backup of the first replaces the file of the second; no file holds the data of the second any more, and its object now shows the data of the first. |
| `C87_violated_bare_name` | Violated: a new file in the working directory cannot be made by binding it under its bare name; this is refused as a missing permission, although saving to the same name succeeds. |
| `C87_violated_id` | Violated: an object that is bound to a file reports the identity that it read when it was made. When another dataspace has been saved to the file, the object shows the data of that dataspace with the identity of the former one. |
| `C88_violated_dangling` | C88 fails for a dataspace from which a link was dropped after it was opened from a file: its mappings are left over, and the helpers refuse what the methods do. |
| `C88_violated_ids` | C88 fails for the ids of records: ids are never used again, also after the method renamed a column, but after the helper a new record gets the id of a deleted one. |
| `C88_violated_order` | C88 fails for names that are free only after another column was renamed, ignoring case: whether the method accepts them depends on the order in which they are given, for the helper it does not. |
| `C88_violated_unknown` | C88 fails for names that are no columns: the method refuses them, the helper does nothing and reports success. |
| `C91_legacy_violated` | In the legacy class two calls that add partition definitions can overlap, and then the definition of the one that is written first is lost without notice. One after the other, in either order, both are there. |
| `C91_read_violated` | Reading is not one transaction either: while another process makes two calls, a reader may see the effect of the second and not that of the first. What it reads is the content of the file at no time: the totals at the three times are 107, 112 and 118, the total read is 113. |
| `C91_unmatched_violated` | Deleting unmatched quantities is not one transaction: the locations to delete are looked up first, so when another process meanwhile does the same and then loads a quantity for an existing record, its location may get the id of a deleted one, and the quantity is lost. It is there if the calls are made one after the other, in whatever order. |
| `C92_labels_violated` | Nor does it check labels: a quantity with labels that no record has can be loaded without complaint, and then nothing can be read any more, although it could before. |
| `C92_read_violated` | The older method does not check combinations of columns: a quantity can be loaded without complaint and is never read. |
| `C94_column_violated` | A new column cannot always be dropped: the call fails if two of the valid combinations of columns become the same without the column. |
| `C94_group_violated` | Without a default weight group a new group cannot be dropped; a new group that becomes the default can be dropped, but the old default is lost. |
| `C94_link_violated` | A new link that becomes the default can be dropped, but the old default link to that dataspace is lost. |
| `C94_rename_violated` | After a column has been dropped, renaming another one to its name and back changes the partition definitions. |
| `C95_index_again_violated` | A load in which a row names a record by its labels and a later row gives it other labels by its id makes another record when it is repeated. |
| `C96_criteria_violated` | A criterion that names no label column is compared as text with the label asked for. So a call that deletes nothing in one spelling (`z='x'`) deletes in another spelling (`z='z'`), because there the label asked for is spelled like the misspelled name of the column. |
| `C97_quantized_violated` | With whole numbers results do not add up: ten is read as 8 and 2, and twenty as 15 and 5. |
| `C97_select_domain_violated` | With a domain the claim is false: all rows of the full result carry the attribute `domain="d"`, but the selector `[domain="d"]` selects none of them. |
| `C98_keys_violated` | Keys of a dictionary that are not texts are read back as texts, and if the text is a key as well then one of the two items is lost. |
| `C98_surrogates_violated` | Two characters that are the halves of a pair are written like the one character that the pair means: the text read is not the text written, and two different dictionaries of attributes are taken for the same. |
| `C99_header_violated` | Column names given although the table has a header: the header is loaded as a record. |
| `C99_keys_lost` | Of dictionaries only the keys of the first count: here the second has a weight, and it is lost. With a header (where the first row has an empty cell) it is loaded. |
| `C99_short_row_violated` | A row that is shorter than the header and lacks labels: `insert_weights` gives the weight to the first record with the labels that are left. Here the row has the label x but no label in the second column. |
| `C99_update_empty_violated` | `update_index` passes over a row if *any* cell is an empty text, also one of a column that has nothing to do with the dataspace: here the label of record 3 is changed, but not if the table has a column of notes in which the cell is empty. |
| `C99_update_text_id_violated` | With `merge_on_conflict` a row about a record that an earlier row has merged into another one is an error, but not if the ids are texts (as in a CSV file): then the row is passed over silently. |

Further observations made while reading, not stated as theorems:

* Reading a dataspace skips quantities whose combination of labels is no longer valid, without a message (C14 counts
  only the others).
* The completeness flags of links and weight groups can be set by hand, and then need not be true.
* `find_matching_weight_groups` matches without the domain while reading matches with it.
* `drop_weight_group` raises `KeyError` when no default group was ever set.
* A registered attribute may have an empty name.
* `Mapper.match_records` called twice duplicates the matches.
* Weights that are NaN or infinite are not refused.
