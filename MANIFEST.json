{
 "claims": [
  {
   "property": "C01",
   "status": "proved",
   "theorems": [
    "Verif.Props.C01_decode_encode"
   ],
   "note": ""
  },
  {
   "property": "C02",
   "status": "proved",
   "theorems": [
    "Verif.Props.C02_blob_alphabet",
    "Verif.Props.C02_no_backquote",
    "Verif.Props.C02_generated_file",
    "Verif.Props.C47_success_partial"
   ],
   "note": ""
  },
  {
   "property": "C03",
   "status": "proved",
   "theorems": [
    "Verif.Props.C03_malformed_rejected",
    "Verif.Props.C03_no_partial_decode"
   ],
   "note": ""
  },
  {
   "property": "C04",
   "status": "partial",
   "theorems": [
    "Verif.Props.C04_invalid_utf8_refuted",
    "Verif.Props.C04_year_refuted",
    "Verif.Props.C04_round_trip_partial",
    "Verif.Props.C04_files_partial"
   ],
   "note": "False for paths that are not valid UTF-8 and for times after the year 9999 (a single such file makes the blob unreadable). Proved: the negations, and the full round trip for every reachable Pkger whose texts, numbers and times JSON and RFC 3339 can express. here.Info in JSON enters as the assumption HereLaw, met by plain structs. FileInfo.Sys is not modelled."
  },
  {
   "property": "C05",
   "status": "proved",
   "theorems": [
    "Verif.Props.C05_reads_yield_content"
   ],
   "note": ""
  },
  {
   "property": "C06",
   "status": "proved",
   "theorems": [
    "Verif.Props.C06_seek_read_cursor"
   ],
   "note": ""
  },
  {
   "property": "C07",
   "status": "partial",
   "theorems": [
    "Verif.Props.C07_empty_read_eof_refuted",
    "Verif.Props.C07_empty_read_partial"
   ],
   "note": "The code violates the property: a fresh empty file reports 'unable to read' instead of EOF. Proved: the negation, and that such handles never deliver bytes nor EOF."
  },
  {
   "property": "C08",
   "status": "proved",
   "theorems": [
    "Verif.Props.C08_written_bytes_are_read",
    "Verif.Props.C08_hypothesis_met"
   ],
   "note": ""
  },
  {
   "property": "C09",
   "status": "proved",
   "theorems": [
    "Verif.Props.C09_invisible_until_close"
   ],
   "note": ""
  },
  {
   "property": "C10",
   "status": "proved",
   "theorems": [
    "Verif.Props.C10_open_is_snapshot",
    "Verif.Props.C10_opened_handle_isolated"
   ],
   "note": ""
  },
  {
   "property": "C100",
   "status": "partial",
   "theorems": [
    "Verif.Props.C100_programs_partial",
    "Verif.Props.C100_later_partial",
    "Verif.Props.C100_program_partial",
    "Verif.Props.C100_open_example",
    "Verif.Props.C100_stat_example",
    "Verif.Props.C100_stat_refuted",
    "Verif.Props.C100_walk_refuted",
    "Verif.Props.C100_empty_refuted",
    "Verif.Props.C100_list_refuted",
    "Verif.Props.C100_close_refuted",
    "Verif.Props.C100_closed_refuted",
    "Verif.Props.C100_own_path_refuted",
    "Verif.Props.C100_below_file_refuted"
   ],
   "note": "False as stated: Stat and Walk of a missing name, reading an empty file, listing or closing twice, reading after closing, opening from a directory a file whose path is the directory's own, and paths below a regular file differ (shown with the reconstruction of here.Parse). Proved for every program that avoids these, and whose listed and walked names are no beginnings of others and are visited in the order of their letters: both results are the one the files determine, also for the packaged program."
  },
  {
   "property": "C101",
   "status": "proved",
   "theorems": [
    "Verif.Props.C101_written",
    "Verif.Props.C101_clock"
   ],
   "note": "The specification is a clock that ticks by the rules of the calendar (month lengths, leap years); it is shown to exist and to be unique. The year condition is part of the property."
  },
  {
   "property": "C102",
   "status": "proved",
   "theorems": [
    "Verif.Props.C102_strings",
    "Verif.Props.C102_always_text"
   ],
   "note": "Text is taken from Lean's own standard library: Char and String.utf8EncodeChar."
  },
  {
   "property": "C103",
   "status": "partial",
   "theorems": [
    "Verif.Props.C103_conservative",
    "Verif.Props.C103_links_partial",
    "Verif.Props.C103_iff_partial",
    "Verif.Props.C103_leads",
    "Verif.Props.C103_directory_refuted",
    "Verif.Props.C103_details_refuted"
   ],
   "note": "False as stated: a link to a directory makes packaging fail with EISDIR, and a link ending in .tmp inside an embedded directory is stored with the link's own details, size included (shown with the reconstruction of here.Parse). Proved otherwise: listed links are embedded with the details and bytes of what they lead to, unlisted ones with the bytes; packaging succeeds exactly if all files can be opened and no link leads to a directory; without links this model agrees with the other one. Scanning of the source directories is not modelled with links."
  },
  {
   "property": "C104",
   "status": "partial",
   "theorems": [
    "Verif.Props.C104_decls",
    "Verif.Props.C104_parse",
    "Verif.Props.C104_map_partial",
    "Verif.Props.C104_map_alone",
    "Verif.Props.C104_kept",
    "Verif.Props.C104_map_refuted"
   ],
   "note": "Decls, Parse and maps handed out: proved for all sequences of calls. DeclsMap: proved when the last reading of the disk succeeded, and when Decls is not called; false otherwise (after a successful Parse, a Decls that fails half-way leaves an incomplete map, which DeclsMap returns with a nil error). One goroutine; the caller does not write to the maps."
  },
  {
   "property": "C105",
   "status": "partial",
   "theorems": [
    "Verif.Props.C105_same",
    "Verif.Props.C105_not_file",
    "Verif.Props.C105_path_partial",
    "Verif.Props.C105_path_refuted"
   ],
   "note": "Same declarations: proved. The recorded path is right for ParseFile on a file in the module's own directory and false otherwise: ParseDir records the last element of the directory's name, ParseFile the file's name only. The refutation uses the reconstruction of here.Info.Parse. The recorded path is not used elsewhere in the repository."
  },
  {
   "property": "C106",
   "status": "partial",
   "theorems": [
    "Verif.Props.C106_load",
    "Verif.Props.C106_range",
    "Verif.Props.C106_keys_partial",
    "Verif.Props.C106_keys_unique",
    "Verif.Props.C106_keys_refuted",
    "Verif.Props.C106_marshal_partial",
    "Verif.Props.C106_marshal_refuted",
    "Verif.Props.C106_files_fails",
    "Verif.Props.C106_files_empty",
    "Verif.Props.C106_files_nulls",
    "Verif.Props.C106_files_refuted"
   ],
   "note": "Load: proved for all sequences of calls. Range and Keys: proved when no nil file was stored; a nil file ends Range early, so Keys leaves out keys (refuted). Infos in JSON: round trip proved after at least one other call; MarshalJSON on an untouched zero value dereferences a nil pointer (refuted). Files in JSON: a non-empty map can never be read back, since encoding/json cannot fill a pkging.File (proved and refuted). The JSON methods are not called in the repository. How here.Info is written is the hypothesis HereLaw; one goroutine (several: C36)."
  },
  {
   "property": "C107",
   "status": "proved",
   "theorems": [
    "Verif.Props.C107_same",
    "Verif.Props.C107_at",
    "Verif.Props.C107_order"
   ],
   "note": "That go/parser puts the right offsets into its trees is the hypothesis Placed (and Spans for the order). go/token.FileSet is modelled with its line table and binary search, without //line directives."
  },
  {
   "property": "C108",
   "status": "partial",
   "theorems": [
    "Verif.Props.C108_written_partial",
    "Verif.Props.C108_newest_partial",
    "Verif.Props.C108_whole_partial",
    "Verif.Props.C108_refuted"
   ],
   "note": "False in full (C108_refuted): a newer layer that has the file without its directory cannot create it, an older one does, and the newer one goes on answering Open. Proved when no newer layer has the file, when the newest layer makes it, and when every layer that has the file lets it be created again. All layers belong to the same module."
  },
  {
   "property": "C109",
   "status": "partial",
   "theorems": [
    "Verif.Props.C109_one_layer_partial",
    "Verif.Props.C109_refuted"
   ],
   "note": "False in full (C109_refuted): the directory handle is that of the newest layer that has the directory and hides the files of older layers. Proved: Dir, Open and Readdir of the handle are exactly those of that layer alone, of which C26, C28 and C29 speak."
  },
  {
   "property": "C11",
   "status": "proved",
   "theorems": [
    "Verif.Props.C11_latest_create_owns"
   ],
   "note": ""
  },
  {
   "property": "C110",
   "status": "partial",
   "theorems": [
    "Verif.Props.C110_qualified_partial",
    "Verif.Props.C110_info_partial",
    "Verif.Props.C110_plain_partial",
    "Verif.Props.C110_refuted"
   ],
   "note": "False in full (C110_refuted, with the reconstructed Parse): a name without package means the module applied last that has it. Proved: full paths pkg:/name and Info do not depend on the order; a name without package leads to the module applied last that has it as its own."
  },
  {
   "property": "C111",
   "status": "partial",
   "theorems": [
    "Verif.Props.C111_same",
    "Verif.Props.C111_at",
    "Verif.Props.C111_printed_partial"
   ],
   "note": "Proved in full for the scan: erasing positions gives the scan of C43, and every position leads to the argument of the call in a .go file of the module, if go/parser reports offsets where the texts are (Places). The printed form is proved for texts that are valid UTF-8 (C85_refuted has the counterexample otherwise); that the positions printed are those of the scan is how the input pos of the program is chosen."
  },
  {
   "property": "C112",
   "status": "proved",
   "theorems": [
    "Verif.Props.C112_same",
    "Verif.Props.C112_split",
    "Verif.Props.C112_null",
    "Verif.Props.C112_null_details",
    "Verif.Props.C112_absent"
   ],
   "note": "The order of the entries inside the map of files is kept by the relation (the map is visited in any order anyway). Members of here.Info and here.Path, whose JSON form is outside the repository, are not varied."
  },
  {
   "property": "C113",
   "status": "proved",
   "theorems": [
    "Verif.Props.C113_cut",
    "Verif.Props.C113_followed",
    "Verif.Props.C113_prefix"
   ],
   "note": "About the JSON text; that gzip and hex reject what is cut off is part of the standard library and not used."
  },
  {
   "property": "C114",
   "status": "partial",
   "theorems": [
    "Verif.Props.C114_time",
    "Verif.Props.C114_same_partial",
    "Verif.Props.C114_range",
    "Verif.Props.C114_range_reached",
    "Verif.Props.C114_zones_partial",
    "Verif.Props.C114_zone_refuted"
   ],
   "note": "False of the code as stated in full: modification times are written with the offset of the machine's time zone (C114_zone_refuted). Proved: the time of packaging makes no difference; within one zone the order of Go's maps makes none if different files have different package paths (C39); MarshalJSON writes the same document in whatever order Range visits; in other zones what is read back is alike."
  },
  {
   "property": "C115",
   "status": "proved",
   "theorems": [
    "Verif.Props.C115_only",
    "Verif.Props.C115_blob",
    "Verif.Props.C115_all",
    "Verif.Props.C115_written",
    "Verif.Props.C115_list",
    "Verif.Props.C115_commands"
   ],
   "note": "The grammar is that of RFC 8259 on bytes, with any bytes from 0x80 on in strings, as Go's reader accepts them; Go's limit on nesting (added after Go 1.13) is not in it."
  },
  {
   "property": "C116",
   "status": "partial",
   "theorems": [
    "Verif.Props.C116_loads_partial",
    "Verif.Props.C116_new_partial",
    "Verif.Props.C116_modes_partial",
    "Verif.Props.C116_leaf_mode_partial",
    "Verif.Props.C116_hidden_refuted",
    "Verif.Props.C116_mode_refuted"
   ],
   "note": "False of the code as stated in full: a hidden directory is not made but the walk goes into it, so a visible file in it makes LoadFiles fail (C116_hidden_refuted), and MkdirAll for a subdirectory gives its mode to the directories above (C116_mode_refuted). Proved for trees whose hidden directories hold only hidden entries, copied to a place where there is nothing yet; which mode a directory in memory ends up with is given by C116_modes_partial."
  },
  {
   "property": "C117",
   "status": "partial",
   "theorems": [
    "Verif.Props.C117_served_partial",
    "Verif.Props.C117_into_partial",
    "Verif.Props.C117_page_partial",
    "Verif.Props.C117_into_page_partial",
    "Verif.Props.C117_own_path_refuted"
   ],
   "note": "False of the code as stated in full: a file of the directory's own path below it is not served (C117_own_path_refuted). Proved for all other paths of a directory copied into an in-memory Pkger just made, under the conditions of C116_new_partial: files, redirects, index pages and 404 (C117_served_partial) and, for directories for which Readdir is right, the pages that list them (C117_page_partial). The same for Pkgers with other files in them is in C117_into_partial and C117_into_page_partial. Missing: the disk Pkger."
  },
  {
   "property": "C118",
   "status": "partial",
   "theorems": [
    "Verif.Props.C118_loads_partial",
    "Verif.Props.C118_directory",
    "Verif.Props.C118_tests_partial",
    "Verif.Props.C118_empty_refuted"
   ],
   "note": "False of the code as stated in full: an empty file cannot be read from memory (C118_empty_refuted). Proved for all other files, for both Pkgers in any states with the same files, if the directory the file goes to is there."
  },
  {
   "property": "C119",
   "status": "partial",
   "theorems": [
    "Verif.Props.C119_into_partial",
    "Verif.Props.C119_walk_partial",
    "Verif.Props.C119_order_refuted"
   ],
   "note": "False of the code as stated in full: the in-memory Walk goes by the order of whole path strings, filepath.Walk directory by directory, so a name such as a-b beside a directory a comes out in another order (C119_order_refuted). Proved for in-memory Pkgers in any state, under the conditions of C116_loads_partial and if nothing beside the directory begins with its name: the calls are exactly the entries LoadFiles returned, each once, in the order of paths, and the same list whenever that list is in the order of paths. Missing: the disk Pkger."
  },
  {
   "property": "C12",
   "status": "proved",
   "theorems": [
    "Verif.Props.C12_size_is_readable_length"
   ],
   "note": ""
  },
  {
   "property": "C120",
   "status": "partial",
   "theorems": [
    "Verif.Props.C120_create_partial",
    "Verif.Props.C120_mkdirAll_partial",
    "Verif.Props.C120_removeAll_partial",
    "Verif.Props.C120_undo_partial",
    "Verif.Props.C120_named_partial",
    "Verif.Props.C120_beside_refuted"
   ],
   "note": "False of the code as stated in full: in memory RemoveAll also takes away what is beside the directory and begins with its letters (C120_beside_refuted), and an empty file cannot be read from memory (C118_empty_refuted). Proved for both Pkgers in all states with the same files for all other names and contents, if no file is in the way; the names a file opened afterwards tells are proved in memory only (C120_named_partial)."
  },
  {
   "property": "C13",
   "status": "proved",
   "theorems": [
    "Verif.Props.C13_remove_exactly",
    "Verif.Props.C13_remove_missing"
   ],
   "note": ""
  },
  {
   "property": "C14",
   "status": "partial",
   "theorems": [
    "Verif.Props.C14_removeAll_refuted",
    "Verif.Props.C14_other_package_refuted",
    "Verif.Props.C14_removeAll_partial"
   ],
   "note": "The code violates the property: it deletes by string prefix, so /ab goes with /a, and in every package. Proved: the negations, and what is deleted and kept otherwise."
  },
  {
   "property": "C15",
   "status": "partial",
   "theorems": [
    "Verif.Props.C15_qualified_refuted",
    "Verif.Props.C15_root_refuted",
    "Verif.Props.C15_mkdirAll_chain_partial"
   ],
   "note": "The code violates the property for other packages and for the root. Proved: the negations, and the property for own-module names, all ancestors but the root."
  },
  {
   "property": "C16",
   "status": "partial",
   "theorems": [
    "Verif.Props.C16_file_replaced_refuted",
    "Verif.Props.C16_mode_reset_refuted",
    "Verif.Props.C16_mkdirAll_frame_partial"
   ],
   "note": "The code violates the property: existing entries on the way are replaced. Proved: the negations, and that nothing else changes and nothing is deleted."
  },
  {
   "property": "C17",
   "status": "partial",
   "theorems": [
    "Verif.Props.C17_file_as_parent_refuted",
    "Verif.Props.C17_failed_create_adds_root_refuted",
    "Verif.Props.C17_parent_exists_partial",
    "Verif.Props.C17_failure_frame_partial"
   ],
   "note": "The code violates the property: a regular file is accepted as parent, and failing calls touch the root. Proved: the negations, existence of the parent, and that failures change at most the root."
  },
  {
   "property": "C18",
   "status": "partial",
   "theorems": [
    "Verif.Props.C18_create_truncates",
    "Verif.Props.C18_stat_name",
    "Verif.Props.C18_root_content_refuted"
   ],
   "note": "Proved for all states and names; the one exception (a regular file stored at the root) is refuted."
  },
  {
   "property": "C19",
   "status": "partial",
   "theorems": [
    "Verif.Props.C19_remove_refuted",
    "Verif.Props.C19_root_missing_refuted",
    "Verif.Props.C19_other_package_refuted",
    "Verif.Props.C19_no_orphans_partial"
   ],
   "note": "The code violates the property: Remove leaves orphans. Proved: the negations, and the invariant for histories without Add and without Remove of non-empty directories."
  },
  {
   "property": "C20",
   "status": "partial",
   "theorems": [
    "Verif.Props.C20_siblings_refuted",
    "Verif.Props.C20_walk_visits_partial",
    "Verif.Props.C20_walk_exact_tree_partial"
   ],
   "note": "The code violates the property: siblings with the root's name as a prefix are visited too. Proved: the negation, that exactly the entries whose key has the prefix are visited once each in order, and the property where no such sibling exists."
  },
  {
   "property": "C21",
   "status": "proved",
   "theorems": [
    "Verif.Props.C21_parents_first"
   ],
   "note": ""
  },
  {
   "property": "C22",
   "status": "partial",
   "theorems": [
    "Verif.Props.C22_skipDir_prunes",
    "Verif.Props.C22_sibling_skipped_refuted",
    "Verif.Props.C22_only_skipped_missing_partial"
   ],
   "note": "The code violates the second half: SkipDir also skips siblings with the directory's name as a prefix. Proved: the pruning, the negation, and that nothing else is missing."
  },
  {
   "property": "C23",
   "status": "proved",
   "theorems": [
    "Verif.Props.C23_stops_at_error",
    "Verif.Props.C23_nil_without_error"
   ],
   "note": ""
  },
  {
   "property": "C24",
   "status": "partial",
   "theorems": [
    "Verif.Props.C24_sibling_visited_refuted",
    "Verif.Props.C24_walk_in_package_partial"
   ],
   "note": "The code violates the property for siblings by prefix. Proved: the negation, and confinement to the package and the name prefix."
  },
  {
   "property": "C25",
   "status": "proved",
   "theorems": [
    "Verif.Props.C25_walk_depends_on_entries",
    "Verif.Props.C25_walk_map_order"
   ],
   "note": ""
  },
  {
   "property": "C26",
   "status": "partial",
   "theorems": [
    "Verif.Props.C26_readdir_refuted",
    "Verif.Props.C26_readdir_children_partial"
   ],
   "note": "The code violates the property. Proved: the negation, and the exact listing under the stated side conditions."
  },
  {
   "property": "C27",
   "status": "partial",
   "theorems": [
    "Verif.Props.C27_paging_refuted",
    "Verif.Props.C27_never_eof",
    "Verif.Props.C27_no_progress",
    "Verif.Props.C27_at_most_n_partial"
   ],
   "note": "The code violates the property: repeated calls return the same entries and never io.EOF. Proved: the negations, and the bound on the number of entries."
  },
  {
   "property": "C28",
   "status": "partial",
   "theorems": [
    "Verif.Props.C28_backslash_refuted",
    "Verif.Props.C28_package_refuted",
    "Verif.Props.C28_dir_open_confined_partial"
   ],
   "note": "With here.Info.Parse as reconstructed (Go/HereParse.lean) names with backslashes or a package prefix escape; these refutations depend on the reconstruction. Proved under ParseLaws: confinement for every other rooted name, with any number of .. elements."
  },
  {
   "property": "C29",
   "status": "partial",
   "theorems": [
    "Verif.Props.C29_own_path_refuted",
    "Verif.Props.C29_package_refuted",
    "Verif.Props.C29_resolves_relative_partial"
   ],
   "note": "The code violates the property: a request equal to the directory's own path returns the directory, and handles of other packages resolve in the module that created them. Proved: the negations, and the property otherwise, in the module recorded in the handle."
  },
  {
   "property": "C30",
   "status": "partial",
   "theorems": [
    "Verif.Props.C30_stat_refuted",
    "Verif.Props.C30_stat_never_notExist",
    "Verif.Props.C30_open_notExist_partial"
   ],
   "note": "The code violates the property for Stat, for every missing path. Proved: that, and the property for Open."
  },
  {
   "property": "C31",
   "status": "proved",
   "theorems": [
    "Verif.Props.C31_newest_layer_first"
   ],
   "note": ""
  },
  {
   "property": "C32",
   "status": "partial",
   "theorems": [
    "Verif.Props.C32_remove_refuted",
    "Verif.Props.C32_failed_remove_removes_refuted",
    "Verif.Props.C32_remove_partial",
    "Verif.Props.C32_removeAll_partial"
   ],
   "note": "The code violates the property: Remove fails if one layer lacks the path. Proved: the negations, and what a layered Remove/RemoveAll over in-memory layers does to each layer."
  },
  {
   "property": "C33",
   "status": "partial",
   "theorems": [
    "Verif.Props.C33_twice_refuted",
    "Verif.Props.C33_layers_in_turn_partial",
    "Verif.Props.C33_open_agrees",
    "Verif.Props.C33_error_ends_walk"
   ],
   "note": "The code violates the property: a path present in two layers is reported twice. Proved: the negation, the exact sequence of reports, and that the first report of a path is the one Open agrees with."
  },
  {
   "property": "C34",
   "status": "proved",
   "theorems": [
    "Verif.Props.C34_apply_stacks",
    "Verif.Props.C34_apply_error",
    "Verif.Props.C34_disk_irrelevant",
    "Verif.Props.C34_nil"
   ],
   "note": ""
  },
  {
   "property": "C35",
   "status": "proved",
   "theorems": [
    "Verif.Props.C35_no_apply_lost",
    "Verif.Props.C35_calls_are_atomic"
   ],
   "note": "sync.RWMutex as a writer/readers lock; steps interleave sequentially consistently"
  },
  {
   "property": "C36",
   "status": "partial",
   "theorems": [
    "Verif.Props.C36_first_store_refuted",
    "Verif.Props.C36_initialised_partial",
    "Verif.Props.C36_after_first_store",
    "Verif.Props.C36_first_store_alone_partial",
    "Verif.Props.C36_no_crash"
   ],
   "note": "The code violates the property for the first use. Proved: a losing schedule, the property for every schedule once one store has completed, and absence of nil dereferences in every schedule."
  },
  {
   "property": "C37",
   "status": "partial",
   "theorems": [
    "Verif.Props.C37_walk_refuted",
    "Verif.Props.C37_spelling_refuted",
    "Verif.Props.C37_created_not_looked_up_partial"
   ],
   "note": "The code violates the property: Walk declarations are looked up on disk even if the program creates the path, and paths are compared by spelling. Proved: the negations (for the reconstructed here.Info.Parse), and the property for declarations other than Walk with the same spelling."
  },
  {
   "property": "C38",
   "status": "proved",
   "theorems": [
    "Verif.Props.C38_files_list"
   ],
   "note": ""
  },
  {
   "property": "C39",
   "status": "partial",
   "theorems": [
    "Verif.Props.C39_nested_module_refuted",
    "Verif.Props.C39_map_order_partial"
   ],
   "note": "False when two files get the same package path, which happens with nested modules (for the reconstructed here.Info.Parse). Proved: the negation, and the property where package paths differ."
  },
  {
   "property": "C40",
   "status": "partial",
   "theorems": [
    "Verif.Props.C40_nested_refuted",
    "Verif.Props.C40_found_partial",
    "Verif.Props.C40_nothing_else",
    "Verif.Props.C40_all_usable_partial"
   ],
   "note": "The code violates the property: declarations nested in a pkger call whose argument cannot be evaluated are missed. Proved: the negation, the exact list found for every tree, that nothing else is found, and the property for trees without unusable calls."
  },
  {
   "property": "C41",
   "status": "partial",
   "theorems": [
    "Verif.Props.C41_refuted",
    "Verif.Props.C41_never_reported"
   ],
   "note": "The code violates the property. Proved: the negation, and that no error is ever returned, for every tree."
  },
  {
   "property": "C42",
   "status": "partial",
   "theorems": [
    "Verif.Props.C42_unresolved_refuted",
    "Verif.Props.C42_implicit_value_refuted",
    "Verif.Props.C42_cycle_refuted",
    "Verif.Props.C42_resolved_partial",
    "Verif.Props.C42_crash_iff"
   ],
   "note": "The code violates the property in three ways. Proved: the negations, the property where evaluation comes to an end, and exactly which arguments crash."
  },
  {
   "property": "C43",
   "status": "partial",
   "theorems": [
    "Verif.Props.C43_prefix_refuted",
    "Verif.Props.C43_root_refuted",
    "Verif.Props.C43_scan_partial"
   ],
   "note": "The code violates the property: names are compared by prefix, also that of the module's own directory (refutations for the reconstructed here.Info.Parse). Proved: the negations, and exactly which directories contribute declarations, in which order."
  },
  {
   "property": "C44",
   "status": "partial",
   "theorems": [
    "Verif.Props.C44_other_module_refuted",
    "Verif.Props.C44_subpackage_refuted",
    "Verif.Props.C44_own_files_partial"
   ],
   "note": "False for files of other modules and for packages that are not the root of their module (refutations for the reconstructed here.Info.Parse). Proved: the negations, and the full property, plus that nothing else is embedded, for listed files in the directory of the packaged package with names and details JSON can express."
  },
  {
   "property": "C45",
   "status": "partial",
   "theorems": [
    "Verif.Props.C45_tmp_refuted",
    "Verif.Props.C45_virtual_refuted",
    "Verif.Props.C45_origin_partial",
    "Verif.Props.C45_listed_partial"
   ],
   "note": "False: Add embeds all of a listed directory, also .tmp files and paths the program creates. Proved: the negations, where everything embedded comes from, and that excluded files are embedded only below a listed directory."
  },
  {
   "property": "C46",
   "status": "partial",
   "theorems": [
    "Verif.Props.C46_refuted",
    "Verif.Props.C46_writer_ignored",
    "Verif.Props.C46_other_errors_partial"
   ],
   "note": "False: the error of the final write is dropped (stuff.go:59-60). Proved: the negation, that no write error is ever reported, and that all earlier errors are."
  },
  {
   "property": "C47",
   "status": "partial",
   "theorems": [
    "Verif.Props.C47_crash_refuted",
    "Verif.Props.C47_error_refuted",
    "Verif.Props.C47_short_write_refuted",
    "Verif.Props.C47_panic_is_success",
    "Verif.Props.C47_success_partial",
    "Verif.Props.C47_never_stale_partial"
   ],
   "note": "False: crashes and errors leave a partial file, short writes go unnoticed. Proved: the negations, exactly when packaging succeeds and that the file is then complete if no write is short, and that every intermediate state is absent or a first part of the complete file."
  },
  {
   "property": "C48",
   "status": "partial",
   "theorems": [
    "Verif.Props.C48_mkdirAll_refuted",
    "Verif.Props.C48_backslash_refuted",
    "Verif.Props.C48_exact_partial",
    "Verif.Props.C48_inside_partial",
    "Verif.Props.C48_qualified_partial",
    "Verif.Props.C48_mkdirAll_partial",
    "Verif.Props.C48_walk_below"
   ],
   "note": "False: MkdirAll joins the raw argument; for the reconstructed here.Info.Parse also names with backslashes escape. Proved for every host: exactly what path each operation hands over, that it is inside the package directory for ordinary names (any number of ..) and for pkg:/plain/names, MkdirAll for clean names, and that a walk never leaves its root."
  },
  {
   "property": "C49",
   "status": "partial",
   "theorems": [
    "Verif.Props.C49_refuted",
    "Verif.Props.C49_reports_partial"
   ],
   "note": "False for names that repeat the module's own directory (for the reconstructed here.Info.Parse). Proved: the exact report of a walk over a tree of plain names, and that each reported string leads back to the place visited, at any later time."
  },
  {
   "property": "C50",
   "status": "partial",
   "theorems": [
    "Verif.Props.C50_refuted",
    "Verif.Props.C50_leaks_one",
    "Verif.Props.C50_leaks_grow",
    "Verif.Props.C50_no_dir_partial",
    "Verif.Props.C50_open_close_partial"
   ],
   "note": "False: the directory's handle is never closed. Proved: the negation, that each answered request leaks exactly one handle, and the cases without leak."
  },
  {
   "property": "C51",
   "status": "proved",
   "theorems": [
    "Verif.Props.C51_asked_once",
    "Verif.Props.C51_answer_stable",
    "Verif.Props.C51_own_package",
    "Verif.Props.C51_failure_not_cached",
    "Verif.Props.C51_first_answer"
   ],
   "note": ""
  },
  {
   "property": "C52",
   "status": "proved",
   "theorems": [
    "Verif.Props.C52_sub",
    "Verif.Props.C52_pack",
    "Verif.Props.C52_unknown",
    "Verif.Props.C52_complete",
    "Verif.Props.C52_only_subs"
   ],
   "note": ""
  },
  {
   "property": "C53",
   "status": "partial",
   "theorems": [
    "Verif.Props.C53_live_refuted",
    "Verif.Props.C53_mode_refuted",
    "Verif.Props.C53_copy_partial",
    "Verif.Props.C53_stable_partial",
    "Verif.Props.C53_fixed_partial",
    "Verif.Props.C53_mode_partial"
   ],
   "note": "False: Stat returns the live details, and directories made by MkdirAll have no ModeDir bit. Proved: the negations, that handles copy faithfully, that details change only by closing that file object and then only size and time, and that the mode never claims a directory where there is none. In-memory Pkger."
  },
  {
   "property": "C54",
   "status": "partial",
   "theorems": [
    "Verif.Props.C54_refuted",
    "Verif.Props.C54_write_after_close_refuted",
    "Verif.Props.C54_close_again_partial"
   ],
   "note": "False: reads and writes after Close succeed. Proved: the negations, and that closing again after any history without a write to the handle changes nothing."
  },
  {
   "property": "C55",
   "status": "partial",
   "theorems": [
    "Verif.Props.C55_directory_refuted",
    "Verif.Props.C55_collision_refuted",
    "Verif.Props.C55_text_determines",
    "Verif.Props.C55_parse_text_partial",
    "Verif.Props.C55_walk_distinct",
    "Verif.Props.C55_blob_partial"
   ],
   "note": "False for names that start with the module's directory (for the reconstructed here.Info.Parse) and, in the embedded text, for names that are not valid UTF-8. Proved: the negations, that the text determines the path, that it is read back for all other names, and absence of collisions in Walk and, for valid UTF-8, in the embedded text."
  },
  {
   "property": "C56",
   "status": "proved",
   "theorems": [
    "Verif.Props.C56_current",
    "Verif.Props.C56_info",
    "Verif.Props.C56_unchanged",
    "Verif.Props.C56_new"
   ],
   "note": ""
  },
  {
   "property": "C57",
   "status": "partial",
   "theorems": [
    "Verif.Props.C57_refuted",
    "Verif.Props.C57_dump_partial",
    "Verif.Props.C57_write_error"
   ],
   "note": "False for names that are not valid UTF-8: encoding/json replaces their bytes. Proved: the negation, and the exact document for all other states of an in-memory Pkger with well formed paths."
  },
  {
   "property": "C58",
   "status": "partial",
   "theorems": [
    "Verif.Props.C58_refuted",
    "Verif.Props.C58_entries_partial",
    "Verif.Props.C58_others_untouched",
    "Verif.Props.C58_idempotent",
    "Verif.Props.C58_inside_partial"
   ],
   "note": "False when two names of the tree designate the same package path, e.g. names differing in trailing white space (refutation for the reconstructed here.Info.Parse). Proved: the negation, the property where package paths differ, what stays untouched, idempotence, and the full property for plain names inside the package's directory."
  },
  {
   "property": "C59",
   "status": "partial",
   "theorems": [
    "Verif.Props.C59_year_refuted",
    "Verif.Props.C59_name_refuted",
    "Verif.Props.C59_iff_partial",
    "Verif.Props.C59_exact",
    "Verif.Props.C59_text_partial"
   ],
   "note": "False for years after 9999, for names that are not valid UTF-8 and for offsets with seconds. Proved: the negations, exactly what is read back, and exactly which details survive."
  },
  {
   "property": "C60",
   "status": "partial",
   "theorems": [
    "Verif.Props.C60_nested_module_refuted",
    "Verif.Props.C60_directory_listing_partial"
   ],
   "note": "The code violates the property for trees with nested modules (for the reconstructed here.Info.Parse). Proved: the negation, and the exact listing for every tree of one module."
  },
  {
   "property": "C61",
   "status": "partial",
   "theorems": [
    "Verif.Props.C61_refuted",
    "Verif.Props.C61_iff_partial"
   ],
   "note": "The code violates the property: the payload null makes UnmarshalJSON dereference nil. Proved: the negation, and that there is no other crash."
  },
  {
   "property": "C62",
   "status": "proved",
   "theorems": [
    "Verif.Props.C62_old_output_irrelevant",
    "Verif.Props.C62_old_output_gone"
   ],
   "note": "For a given result of pkger.Current; os.RemoveAll is taken to succeed; the second theorem for writes that are not short."
  },
  {
   "property": "C63",
   "status": "partial",
   "theorems": [
    "Verif.Props.C63_refuted",
    "Verif.Props.C63_not_listed_partial"
   ],
   "note": "False: with a declared directory above the output, the output is embedded with its header only. Proved: the negation, and that it is not embedded otherwise, for files of the own module."
  },
  {
   "property": "C64",
   "status": "proved",
   "theorems": [
    "Verif.Props.C64_stat_after_close"
   ],
   "note": ""
  },
  {
   "property": "C65",
   "status": "partial",
   "theorems": [
    "Verif.Props.C65_dotdot_refuted",
    "Verif.Props.C65_package_refuted",
    "Verif.Props.C65_clean_partial"
   ],
   "note": "False: .. is resolved after joining and the package is dropped. Proved: the negations, and the property for clean names and directories of the current module."
  },
  {
   "property": "C66",
   "status": "proved",
   "theorems": [
    "Verif.Props.C66_options",
    "Verif.Props.C66_pack",
    "Verif.Props.C66_help"
   ],
   "note": ""
  },
  {
   "property": "C67",
   "status": "partial",
   "theorems": [
    "Verif.Props.C67_stat",
    "Verif.Props.C67_info",
    "Verif.Props.C67_list_refuted",
    "Verif.Props.C67_list_removes",
    "Verif.Props.C67_list_partial"
   ],
   "note": "False of list, which removes the generated file. Proved: for stat and info, over every host; exactly what list does to the generated file."
  },
  {
   "property": "C68",
   "status": "partial",
   "theorems": [
    "Verif.Props.C68_refuted",
    "Verif.Props.C68_agree_partial"
   ],
   "note": "False: packaging with a declared directory above the output goes through its own half-written output, which list does not show. Proved: agreement, including failures, whenever what the declarations name is the same with and without the output."
  },
  {
   "property": "C69",
   "status": "partial",
   "theorems": [
    "Verif.Props.C69_refuted",
    "Verif.Props.C69_closes_partial"
   ],
   "note": "False if the status of an opened file cannot be told. Proved for all hosts where it can, including runs that end in an error."
  },
  {
   "property": "C70",
   "status": "partial",
   "theorems": [
    "Verif.Props.C70_refuted",
    "Verif.Props.C70_loaded_partial"
   ],
   "note": "False for Pkgers that cannot be expressed in the blob (see C04). Proved for all others: the loaded Pkger is a valid start, so that every theorem stated for reached states holds of it after any history."
  },
  {
   "property": "C71",
   "status": "partial",
   "theorems": [
    "Verif.Props.C71_shared_refuted",
    "Verif.Props.C71_readers_partial",
    "Verif.Props.C71_fresh_readers",
    "Verif.Props.C71_unchanged"
   ],
   "note": "False for a handle of a regular file shared by asking it for its own path, which returns the handle itself. Proved: goroutines that share only handles without content (as directories' are), in every interleaving of whole calls. Interleavings inside calls are the subject of C90."
  },
  {
   "property": "C72",
   "status": "partial",
   "theorems": [
    "Verif.Props.C72_own_path_refuted",
    "Verif.Props.C72_file_partial"
   ],
   "note": "False for the path that equals the served directory's own, where the handle returns itself. Proved for all other paths. net/http's file server is modelled from memory."
  },
  {
   "property": "C73",
   "status": "partial",
   "theorems": [
    "Verif.Props.C73_own_path_refuted",
    "Verif.Props.C73_ranges_partial"
   ],
   "note": "False of the served directory's own path (see C72; shown with the reconstruction of here.Parse). Proved for all other paths. net/http's file server is modelled from memory; the header's syntax is a parameter."
  },
  {
   "property": "C74",
   "status": "partial",
   "theorems": [
    "Verif.Props.C74_page_refuted",
    "Verif.Props.C74_redirect_partial",
    "Verif.Props.C74_index_partial",
    "Verif.Props.C74_page_partial"
   ],
   "note": "False where Readdir is (see C26). Proved: redirects, index pages, and listings under the conditions under which Readdir is right."
  },
  {
   "property": "C75",
   "status": "partial",
   "theorems": [
    "Verif.Props.C75_shared_refuted",
    "Verif.Props.C75_dir",
    "Verif.Props.C75_handle_partial"
   ],
   "note": "False when the handle of a regular file is served and asked for its own path. Proved for pkger.Dir without restriction and for handles without content, as directories' are."
  },
  {
   "property": "C76",
   "status": "partial",
   "theorems": [
    "Verif.Props.C76_refuted",
    "Verif.Props.C76_tidy_partial",
    "Verif.Props.C76_exit"
   ],
   "note": "False when the flag package ends the process: then nothing is tidied. Proved for every other way to end."
  },
  {
   "property": "C77",
   "status": "partial",
   "theorems": [
    "Verif.Props.C77_full_disk_refuted",
    "Verif.Props.C77_status_partial"
   ],
   "note": "False if writes fail, whose errors are dropped. Proved, as an equivalence, for writes that succeed."
  },
  {
   "property": "C78",
   "status": "partial",
   "theorems": [
    "Verif.Props.C78_clash_refuted",
    "Verif.Props.C78_listed_partial",
    "Verif.Props.C78_missing"
   ],
   "note": "False of names in a module that read like names on disk below another module's directory: after Open(lib:/x), Open(/src/lib/x) is left out (shown with the reconstruction of here.Parse). Proved for all other declarations that stay inside one module each (nested modules violate it, see C60)."
  },
  {
   "property": "C79",
   "status": "partial",
   "theorems": [
    "Verif.Props.C79_program_partial"
   ],
   "note": "Proved for packages at the root of their module with declarations of their own module in plain form. For other modules and sub-packages it is false, see C44_other_module_refuted and C44_subpackage_refuted."
  },
  {
   "property": "C80",
   "status": "partial",
   "theorems": [
    "Verif.Props.C80_calls",
    "Verif.Props.C80_files",
    "Verif.Props.C80_fileStat",
    "Verif.Props.C80_walk_missing",
    "Verif.Props.C80_mkdirAll_partial"
   ],
   "note": "MkdirAll only for clean names; for others it is false, see C48_mkdirAll_refuted."
  },
  {
   "property": "C81",
   "status": "partial",
   "theorems": [
    "Verif.Props.C81_agree_partial",
    "Verif.Props.C81_order_refuted"
   ],
   "note": "False of the order of Walk (refuted). Proved up to order, in the cases of C79, for walks without siblings that share the name's letters (for those it is false, see C24)."
  },
  {
   "property": "C82",
   "status": "partial",
   "theorems": [
    "Verif.Props.C82_refuted",
    "Verif.Props.C82_request",
    "Verif.Props.C82_any_package",
    "Verif.Props.C82_serve_partial",
    "Verif.Props.C82_serve_missing"
   ],
   "note": "False of directories of other packages: pkger serve lib:/www serves the own module's /www (shown with the reconstruction of here.Parse). Proved for directories of the own module, from any package in it, and names without special characters. net/http's file server is modelled from memory."
  },
  {
   "property": "C83",
   "status": "partial",
   "theorems": [
    "Verif.Props.C83_below_file_refuted",
    "Verif.Props.C83_own_path_refuted",
    "Verif.Props.C83_sibling_refuted",
    "Verif.Props.C83_request_partial",
    "Verif.Props.C83_program_partial"
   ],
   "note": "False below regular files (500 against 404), for the served directory's own path, and for listings with names that start with a directory's name. Proved for all other requests, for packages at the root of their module as in C79."
  },
  {
   "property": "C84",
   "status": "partial",
   "theorems": [
    "Verif.Props.C84_refuted",
    "Verif.Props.C84_path_partial",
    "Verif.Props.C84_error"
   ],
   "note": "False of arguments that are not valid UTF-8, which JSON cannot express. Proved for all others."
  },
  {
   "property": "C85",
   "status": "partial",
   "theorems": [
    "Verif.Props.C85_refuted",
    "Verif.Props.C85_parse_partial",
    "Verif.Props.C85_error"
   ],
   "note": "False of texts that are not valid UTF-8. Proved for all others. The positions of declarations are inputs."
  },
  {
   "property": "C86",
   "status": "partial",
   "theorems": [
    "Verif.Props.C86_refuted",
    "Verif.Props.C86_text",
    "Verif.Props.C86_lines_partial",
    "Verif.Props.C86_json_partial"
   ],
   "note": "False of names with newlines (text) or that are not valid UTF-8 (JSON). Proved for all others."
  },
  {
   "property": "C87",
   "status": "partial",
   "theorems": [
    "Verif.Props.C87_refuted",
    "Verif.Props.C87_stat_partial",
    "Verif.Props.C87_stat_error",
    "Verif.Props.C87_info_partial",
    "Verif.Props.C87_info_error"
   ],
   "note": "False of names that are not valid UTF-8. Proved for all others."
  },
  {
   "property": "C88",
   "status": "partial",
   "theorems": [
    "Verif.Props.C88_exclude_refuted",
    "Verif.Props.C88_unknown",
    "Verif.Props.C88_options",
    "Verif.Props.C88_help",
    "Verif.Props.C88_untouched",
    "Verif.Props.C88_usage_partial",
    "Verif.Props.C88_shown"
   ],
   "note": "False of serve: usage shows an option -exclude, but serve does not read options. Proved for everything else."
  },
  {
   "property": "C89",
   "status": "partial",
   "theorems": [
    "Verif.Props.C89_serve",
    "Verif.Props.C89_missing",
    "Verif.Props.C89_requests_partial"
   ],
   "note": "The requests part is for directories of the own module, as C82; it is false of those of other packages (C82_refuted). What net/http does otherwise is a parameter."
  },
  {
   "property": "C90",
   "status": "proved",
   "theorems": [
    "Verif.Props.C90_readers",
    "Verif.Props.C90_ends",
    "Verif.Props.C90_unchanged",
    "Verif.Props.C90_uninterrupted",
    "Verif.Props.C90_dir",
    "Verif.Props.C90_handle"
   ],
   "note": "Interleavings of single accesses, taken as sequentially consistent; stored paths are assumed to have names, as here.Parse gives them."
  },
  {
   "property": "C91",
   "status": "proved",
   "theorems": [
    "Verif.Props.C91_kept",
    "Verif.Props.C91_created",
    "Verif.Props.C91_all"
   ],
   "note": "Interleavings of single accesses, taken as sequentially consistent. The parent directory rule for success uses the laws of here.Parse."
  },
  {
   "property": "C92",
   "status": "partial",
   "theorems": [
    "Verif.Props.C92_refuted",
    "Verif.Props.C92_no_mixture_partial"
   ],
   "note": "False for the size: Close puts the bytes in place before the size, and Open copies the details before the bytes, so a reader in between gets the new content with the old size (shown with the reconstruction of here.Parse). Proved: the content is never a mixture."
  },
  {
   "property": "C93",
   "status": "partial",
   "theorems": [
    "Verif.Props.C93_refuted",
    "Verif.Props.C93_walk_partial"
   ],
   "note": "False if a listed file is removed meanwhile: Walk returns os.ErrNotExist and leaves out the files after it (shown with the reconstruction of here.Parse). Proved as long as nobody deletes below the root of the walk."
  },
  {
   "property": "C94",
   "status": "proved",
   "theorems": [
    "Verif.Props.C94_removeAll",
    "Verif.Props.C94_remove",
    "Verif.Props.C94_rest"
   ],
   "note": "Interleavings of single accesses, taken as sequentially consistent."
  },
  {
   "property": "C95",
   "status": "partial",
   "theorems": [
    "Verif.Props.C95_refuted",
    "Verif.Props.C95_orphan_refuted",
    "Verif.Props.C95_adding_partial"
   ],
   "note": "False: two Remove of one file both succeed, and Create below a directory that RemoveAll removes leaves a file without its directory (shown with the reconstruction of here.Parse). Proved for any number of Create and MkdirAll: there is an order in which they give the same answers and leave the same paths."
  },
  {
   "property": "C96",
   "status": "partial",
   "theorems": [
    "Verif.Props.C96_refuted",
    "Verif.Props.C96_separate_partial",
    "Verif.Props.C96_nobody_creates_partial",
    "Verif.Props.C96_writers_partial"
   ],
   "note": "False: Open reads the bytes of a file while Close writes them (shown with the reconstruction of here.Parse). Proved when nobody looks at files that another goroutine creates; Open and Readdir on a handle count as looking at everything."
  },
  {
   "property": "C97",
   "status": "partial",
   "theorems": [
    "Verif.Props.C97_disk",
    "Verif.Props.C97_mem_partial",
    "Verif.Props.C97_agree_partial",
    "Verif.Props.C97_program_partial",
    "Verif.Props.C97_refuted",
    "Verif.Props.C97_empty_refuted"
   ],
   "note": "False as stated: the in-memory Pkger removes full directories, creates below and over what it should not, lists and removes by the beginning of names and cannot read empty files (shown with the reconstruction of here.Parse). On the disk every program does what it should; in memory every program that keeps to Fits does, so both answer alike, also when the in-memory Pkger comes from the embedded files."
  },
  {
   "property": "C98",
   "status": "partial",
   "theorems": [
    "Verif.Props.C98_programs",
    "Verif.Props.C98_requests",
    "Verif.Props.C98_ends",
    "Verif.Props.C98_shared_refuted"
   ],
   "note": "Proved for goroutines that open their own files, in particular for all requests in progress at once: in every interleaving of system calls and accesses to the map of packages each gets what it would get alone, and ends. False for goroutines that read from one open file. The disk does not change, the Go tool always gives the same answers, and filepath.Walk takes in the tree in one step."
  },
  {
   "property": "C99",
   "status": "partial",
   "theorems": [
    "Verif.Props.C99_refuted",
    "Verif.Props.C99_stays_partial",
    "Verif.Props.C99_known",
    "Verif.Props.C99_said",
    "Verif.Props.C99_alone"
   ],
   "note": "False while two goroutines look up the same package and the Go tool's answers differ: the second answer replaces the first. Proved when nobody is in the middle of a lookup, and for programs that run alone; what is known is never forgotten, and always comes from the Go tool."
  }
 ]
}
