{"claims": [
 {"property": "C01", "status": "proved", "theorems": ["Verif.Props.C01_flash_string_round_trip", "Verif.Props.C01_flash_string_token", "Verif.Props.C01_flash_string_injective"], "note": ""},
 {"property": "C02", "status": "partial", "theorems": ["Verif.Props.C02_flash_injection", "Verif.Props.C02_flash_injection_general", "Verif.Props.C02_flash_confined_iff_partial", "Verif.Props.C02_flash_truncation_duplicates"], "note": "The full statement is false; the negation is proved with a witness, and confinement under an exact guard."},
 {"property": "C03", "status": "proved", "theorems": ["Verif.Props.C03_flash_one_json_line"], "note": ""},
 {"property": "C04", "status": "partial", "theorems": ["Verif.Props.C04_flash_content", "Verif.Props.C04_flash_keeps_empty_group", "Verif.Props.C04_flash_content_ideal_partial", "Verif.Props.C04_flash_integer_numeral"], "note": "Full statement false (empty groups from WithGroup remain in some cases); the exact content is proved, and the ideal content under a guard."},
 {"property": "C05", "status": "partial", "theorems": ["Verif.Props.C05_flash_fails_on_nothing", "Verif.Props.C05_flash_withAttrs_is_logging_partial", "Verif.Props.C05_flash_withAttrs_is_logging_replace", "Verif.Props.C05_flash_withAttrs_twice"], "note": "False for a handler fresh from WithGroup when nothing is printed; proved otherwise."},
 {"property": "C06", "status": "proved", "theorems": ["Verif.Props.C06_flash_withGroup_is_group_attr"], "note": ""},
 {"property": "C07", "status": "proved", "theorems": ["Verif.Props.C07_flash_trailing_groups_elided", "Verif.Props.C07_flash_groups_printed", "Verif.Props.SloggyDerive.C07_sloggy_trailing_groups_elided", "Verif.Props.SloggyDerive.C07_sloggy_groups_printed"], "note": "Both handlers. Second half: flash by bytes (names without escapes), sloggy by content, both without ReplaceAttr."},
 {"property": "C08", "status": "partial", "theorems": ["Verif.Props.C08_flash_sibling_overwrites", "Verif.Props.C08_flash_groups_overwritten", "Verif.Props.C08_flash_heap_refines_values", "Verif.Props.C08_flash_immutable_partial", "Verif.Props.SloggyHeap.C08_sloggy_groups_overwritten", "Verif.Props.SloggyHeap.C08_sloggy_without_replace_partial", "Verif.Props.SloggyHeap.C08_sloggy_refines_values_without_replace", "Verif.Props.SloggyHeap.C08_sloggy_heap_refines_values", "Verif.Props.SloggyHeap.C08_sloggy_immutable_partial"], "note": "False in general: flash shares prefixes and both share the group list (witness theorems). Proved: flash when no handler with a non-empty prefix is derived from twice; sloggy without ReplaceAttr for all histories, and with any ReplaceAttr when no handler with open groups is derived from twice."},
 {"property": "C09", "status": "partial", "theorems": ["Verif.Props.C09_flash_fails_after_group", "Verif.Props.C09_flash_withAttrs_fails_after_group", "Verif.Props.C09_flash_neutral_plain_partial", "Verif.Props.C09_flash_neutral_loud_partial", "Verif.Props.SloggyDerive.C09_sloggy_fails_after_group", "Verif.Props.SloggyDerive.C09_sloggy_withAttrs_fails_after_group", "Verif.Props.SloggyDerive.C09_sloggy_neutral_plain_partial", "Verif.Props.SloggyDerive.C09_sloggy_neutral_loud_partial"], "note": "False in both handlers after WithGroup (proved); true under the exact guard."},
 {"property": "C10", "status": "proved", "theorems": ["Verif.Props.C10_flash_lines_whole", "Verif.Props.C10_flash_all_done"], "note": ""},
 {"property": "C100", "status": "partial", "theorems": ["Verif.Props.TestMenu.C100_menus_partial", "Verif.Props.TestMenu.C100_source_partial", "Verif.Props.TestMenu.C100_same", "Verif.Props.TestMenu.C100_fails", "Verif.Props.TestMenu.C100_separator"], "note": "False in full (C100_fails): a benchmark of which there are warnings but no results is in no menu. C100_menus_partial proves everything else for the server after reading both reports; C100_source_partial is the statement for any source and any list of warnings read; C100_separator: a source given with the separator of tags lists nothing, since the function looks for a colon where tags have a full stop."},
 {"property": "C101", "status": "partial", "theorems": ["Verif.Props.CountStatus.C101_status_partial", "Verif.Props.CountStatus.C101_after_parse", "Verif.Props.CountStatus.C101_twice", "Verif.Props.CountStatus.C101_fails"], "note": "False in full (C101_fails): the runes shown after the cursor have been read, so asking again gives another text. C101_status_partial proves the text, and what is left to read afterwards; C101_after_parse: Parse always ends in one of these states; C101_twice: so does asking. The word for the number of fields (package go-pluralize) is a parameter."},
 {"property": "C102", "status": "partial", "theorems": ["Verif.Props.Exhibit.C102_warnings", "Verif.Props.Exhibit.C102_level_rows", "Verif.Props.Exhibit.C102_warnings_again", "Verif.Props.Exhibit.C102_benchmarks_partial", "Verif.Props.Exhibit.C102_fails"], "note": "Proved for axes of warnings (C102_warnings). False in full for axes of benchmarks (C102_fails): lists show names of tests without their source, so that a tag given without source, which has no effect, looks like the right one. C102_benchmarks_partial: true where the names shown tell the tests in the lists apart, as for the keepers of the program. The templates are not modelled."},
 {"property": "C103", "status": "proved", "theorems": ["Verif.Props.Dict.C103_dict", "Verif.Props.Dict.C103_once"], "note": "Values that are not strings are of any type; that it does not panic is that the model, which has no other outcome, is total: the index i+1 is only used if it is in range."},
 {"property": "C11", "status": "proved", "theorems": ["Verif.Props.C11_flash_own_bytes", "Verif.Props.C11_flash_pools_invisible"], "note": "Handle calls; WithAttrs uses the same pools of composers only and is covered by the heap model of C08."},
 {"property": "C12", "status": "proved", "theorems": ["Verif.Props.C12_flash_error_iff", "Verif.Props.C12_flash_failing_writes_nothing"], "note": "Handle fails exactly when a logged value's marshaler fails; then nothing is written."},
 {"property": "C13", "status": "proved", "theorems": ["Verif.Props.C13_flash_enabled", "Verif.Props.SloggyDerive.C13_sloggy_enabled"], "note": "Both handlers, every derived handler."},
 {"property": "C14", "status": "proved", "theorems": ["Verif.Props.C14_flash_extras_fields", "Verif.Props.C14_flash_level_names", "Verif.Props.C14_flash_options", "Verif.Props.C14_flash_idempotent"], "note": ""},
 {"property": "C15", "status": "partial", "theorems": ["Verif.Props.C15_flash_unnamed_level", "Verif.Props.C15_flash_unnamed_level_line", "Verif.Props.C15_flash_level_named_partial"], "note": "The property as stated is false: a level outside the map prints an empty text (witness, and the line it produces). Proved for named levels."},
 {"property": "C16", "status": "partial", "theorems": ["Verif.Props.C16_flash_replaced_partial", "Verif.Props.C16_flash_nested_names", "Verif.Props.SloggyLine.C16_sloggy_replaced_partial", "Verif.Props.SloggyLine.C16_sloggy_nested_names"], "note": "Both handlers (flash: for functions that leave no group without members; sloggy: at least one built-in field kept); names of group attributes are not passed (negations proved)."},
 {"property": "C17", "status": "partial", "theorems": ["Verif.Props.FlashHollow.C17_flash_exact_partial", "Verif.Props.FlashHollow.C17_flash_given_partial", "Verif.Props.C17_flash_tame_partial", "Verif.Props.C17_flash_lost_comma"], "note": "The full claim is false (ReplaceAttr emptying a group loses a comma, proved in C17_flash_lost_comma). C17_flash_exact_partial is exact for every function whose results can be printed: the line is JSON if and only if no member follows a hollow group in the same list, and then it has exactly the members left; C17_flash_given_partial says it for given members, C17_flash_tame_partial is a simple sufficient condition. For sloggy see C78."},
 {"property": "C18", "status": "partial", "theorems": ["Verif.Props.C18_flash_with_replace", "Verif.Props.C18_flash_plain_partial", "Verif.Props.C18_flash_duration", "Verif.Props.SloggyLine.C18_sloggy_without_replace", "Verif.Props.SloggyLine.C18_sloggy_with_replace", "Verif.Props.SloggyLine.C18_sloggy_nil"], "note": "False in flash without ReplaceAttr (durations, times, groups) and in sloggy with ReplaceAttr (proved); proved for flash with ReplaceAttr, for flash with plain kinds, for sloggy without ReplaceAttr byte for byte."},
 {"property": "C19", "status": "proved", "theorems": ["Verif.Props.SloggyLine.C19_sloggy_line", "Verif.Props.SloggyLine.C19_sloggy_replaced", "Verif.Props.SloggyLine.C19_sloggy_no_builtins"], "note": "With and without ReplaceAttr; the condition that a built-in field is kept is necessary (proved)."},
 {"property": "C20", "status": "partial", "theorems": ["Verif.Props.SloggyLine.C20_sloggy_bell", "Verif.Props.SloggyLine.C20_sloggy_string_partial"], "note": "False; the exact set of strings for which it holds is proved."},
 {"property": "C21", "status": "partial", "theorems": ["Verif.Props.SloggyDerive.C21_sloggy_flash_agree_partial", "Verif.Props.SloggyDerive.C21_sloggy_flash_same_partial", "Verif.Props.SloggyDerive.C21_sloggy_flash_source_order"], "note": "False only in the order of the members inside source (proved); everything else agrees."},
 {"property": "C22", "status": "partial", "theorems": ["Verif.Props.SloggyThreads.C22_sloggy_lines_not_whole", "Verif.Props.SloggyThreads.C22_sloggy_serialised_partial", "Verif.Props.SloggyThreads.C22_sloggy_own_bytes_partial", "Verif.Props.SloggyThreads.C22_sloggy_line_end", "Verif.Props.SloggyThreads.C22_sloggy_line_end_exclusive"], "note": "The claim is false (C22_sloggy_lines_not_whole: the mutex covers only the line end). Proved: lines are whole when calls do not overlap; in every schedule the bytes of each goroutine are in program order; line ends exclude each other."},
 {"property": "C23", "status": "partial", "theorems": ["Verif.Props.C23_flash_context_matters", "Verif.Props.C23_flash_context_partial", "Verif.Props.SloggyDerive.C23_sloggy_context_matters", "Verif.Props.SloggyDerive.C23_sloggy_context_partial"], "note": "False in both handlers; proved under the exact guard."},
 {"property": "C24", "status": "proved", "theorems": ["Verif.Props.Replace.C24_changeKey", "Verif.Props.Replace.C24_changeValue", "Verif.Props.Replace.C24_removeKey", "Verif.Props.Replace.C24_changeCase", "Verif.Props.Replace.C24_changeCase_other", "Verif.Props.Replace.C24_topCheck", "Verif.Props.Replace.C24_current", "Verif.Props.Replace.C24_idempotent", "Verif.Props.Replace.C24_changeCase_idempotent"], "note": "The letter-case functions of Go's strings package are assumed to do what is documented on ASCII texts (Verif.Letters.Good, shown satisfiable by ascii_good); case-insensitive matching is stated for ASCII keys."},
 {"property": "C25", "status": "proved", "theorems": ["Verif.Props.Replace.C25_multiple_runs", "Verif.Props.Replace.C25_multiple_units", "Verif.Props.Replace.C25_multiple_append", "Verif.Props.Replace.C25_multiple_nested", "Verif.Props.Replace.C25_multiple_assoc", "Verif.Props.Replace.C25_multiple_nested_exception", "Verif.Props.Replace.C25_multiple_never_empty", "Verif.Props.Replace.C25_multiple_composes", "Verif.Props.Replace.C25_package_keeps_empty"], "note": "Flattening a nested Multiple holds exactly unless the attribute is empty on entry (C25_multiple_nested_exception shows the case where an empty attribute enters)."},
 {"property": "C26", "status": "proved", "theorems": ["Verif.Props.Replattr.C26_replattr_same_line", "Verif.Props.Replattr.C26_replattr_same_basics", "Verif.Props.Replattr.C26_replattr_renames_in_group"], "note": "Stronger than the property: the whole line, for derived handlers, every level, with or without a ReplaceAttr of the user. Guard: no attribute is named message, msg, lvl or level (C26_replattr_renames_in_group shows why); if the user has a ReplaceAttr, it invents no such key inside groups and no attribute has an empty key without being a group."},
 {"property": "C27", "status": "proved", "theorems": ["Verif.Props.WarnRegistry.C27_lookup", "Verif.Props.WarnRegistry.C27_create_returns_first", "Verif.Props.WarnRegistry.C27_create_again_changes_nothing", "Verif.Props.WarnRegistry.C27_registered"], "note": "Every sequence of creations and listings."},
 {"property": "C28", "status": "partial", "theorems": ["Verif.Props.WarnRegistry.C28_lists_registered_partial", "Verif.Props.WarnRegistry.C28_lists_unique", "Verif.Props.WarnRegistry.C28_lists_frozen", "Verif.Props.WarnRegistry.C28_listing_goes_stale"], "note": "False as stated: the tree is built by the first listing and never again, so warnings created later are missing (C28_listing_goes_stale refutes C28_statement). Proved: if all creations come before the first listing the listing is exactly the registered warnings of the level, sorted by name, whatever sort is used."},
 {"property": "C29", "status": "proved", "theorems": ["Verif.Props.WarnManager.C29_bookkeeping", "Verif.Props.WarnManager.C29_nothing_lost"], "note": "Every history of operations, compared with a plain log of additions. Hypothesis OneUnused: any warning named Unused is the predefined one, which C27 guarantees."},
 {"property": "C30", "status": "proved", "theorems": ["Verif.Props.WarnManager.C30_report", "Verif.Props.WarnManager.C30_report_deterministic", "Verif.Props.WarnManager.C30_report_stable"], "note": "Every history, every sort function and every map iteration order; nil and empty slice are identified."},
 {"property": "C31", "status": "proved", "theorems": ["Verif.Props.WarnManager.C31_hasWarning", "Verif.Props.WarnManager.C31_hasWarnings", "Verif.Props.WarnManager.C31_skipTestIf"], "note": "Every history, flag and argument list; SkipTestIf looks at the declaration only, not at the flag."},
 {"property": "C32", "status": "proved", "theorems": ["Verif.Props.WarnText.C32_parse_iff", "Verif.Props.WarnText.C32_parse_any_text", "Verif.Props.WarnText.C32_parse_ignores_case", "Verif.Props.WarnText.C32_round_trip", "Verif.Props.WarnText.C32_printing", "Verif.Props.WarnText.C32_order"], "note": "For every text. Assumption on unicode.ToLower: structure Letters.Lowers (only U+0130 and U+212A have an ASCII lower case besides ASCII itself)."},
 {"property": "C33", "status": "partial", "theorems": ["Verif.Props.WarnText.C33_dedent", "Verif.Props.WarnText.C33_text_exists", "Verif.Props.WarnText.C33_idempotent_partial", "Verif.Props.WarnText.C33_not_idempotent", "Verif.Props.WarnText.C33_long_line_loses_the_rest"], "note": "C33_dedent is the first half for every text whose lines are shorter than 64 KiB. Idempotence is false as stated: a line ending in two carriage returns loses one each time (C33_not_idempotent); proved for lines without carriage return at the end. A longer line ends the scan (C33_long_line_loses_the_rest)."},
 {"property": "C34", "status": "partial", "theorems": ["Verif.Props.FieldCount.C34_counts_of_every_object", "Verif.Props.FieldCount.C34_reports_partial", "Verif.Props.FieldCount.C34_reports_texts_partial", "Verif.Props.FieldCount.C34_statement_fails", "Verif.Props.FieldCount.C34_escaped_duplicate_missed"], "note": "As written the claim is false, and that is proved: a member \"fields\" whose value is an object is counted inside out at any depth, and keys are compared by spelling. Proved for all JSON objects: Parse succeeds and the counts are exact for every key but \"fields\"; without such members all reports are exact for spellings, and for texts if no key is escaped."},
 {"property": "C35", "status": "partial", "theorems": ["Verif.Props.FieldCount.C35_statement_fails", "Verif.Props.FieldCount.C35_trailing_text_accepted", "Verif.Props.FieldCount.C35_other_start_rejected_partial", "Verif.Props.FieldLenient.C35_exact_partial", "Verif.Props.FieldLenient.C35_json_lenient"], "note": "False as written, proved by the empty input and by any text after an object. C35_exact_partial says for every input exactly what is accepted: what begins with an object in a wider grammar (trailing commas, odd numbers, any case of true/false/null, any white space and any runes in strings), or begins one that something not beginning with a letter completes; everything else is rejected. About package unicode it is assumed what ASCII letters and digits are and that white space is neither."},
 {"property": "C36", "status": "proved", "theorems": ["Verif.Props.FieldCount.C36_parse_ends", "Verif.Props.FieldCount.C36_consumed_fits", "Verif.Props.FieldCount.C36_consumed_prefix"], "note": "For every byte sequence, with a linear bound on the rounds; the unread rest and the location agree with the runes consumed."},
 {"property": "C37", "status": "partial", "theorems": ["Verif.Props.BenchData.C37_views_partial", "Verif.Props.BenchData.C37_same_pairs", "Verif.Props.BenchData.C37_by_test", "Verif.Props.BenchData.C37_tags", "Verif.Props.BenchData.C37_rates_differ", "Verif.Props.BenchData.C37_tags_stale"], "note": "Both views hold the last result for each handler and test over any sequence of texts, both know the same pairs, and the tag lists are the tags of the views. False in full, proved with witnesses: the rates in GB/s and TB/s are zero in the view by handler, and the tag lists are cached, so they are stale if more is read later."},
 {"property": "C38", "status": "partial", "theorems": ["Verif.Props.WarnReport.C38_round_trip_partial", "Verif.Props.WarnReport.C38_managers", "Verif.Props.WarnReport.C38_tag", "Verif.Props.WarnMore.C38_bracket"], "note": "Any number of handlers after any use of their managers, texts of several lines and log lines included: the parser finds exactly what was added. False as stated (C38_bracket: a closing bracket in a summary), so the texts are restricted to those that can be read back (OkRun): no closing bracket in summaries, no leading or trailing white space, function names that are words the parser does not take for something else. Other output may come before the reports (Before: lines without the two headings) and after them."},
 {"property": "C39", "status": "partial", "theorems": ["Verif.Props.WarnReport.C39_panics", "Verif.Props.WarnReport.C39_partial"], "note": "False as stated: a log line without a pending instance dereferences nil (C39_panics). No panic on any text without lines that look like log lines, and none on printed reports (C38_round_trip_partial)."},
 {"property": "C40", "status": "partial", "theorems": ["Verif.Props.ScoreRange.C40_times_partial", "Verif.Props.ScoreRange.C40_counts_partial", "Verif.Props.ScoreRange.C40_exact", "Verif.Props.ScoreRange.C40_rounding_fails", "Verif.Props.ScoreRange.C40_above_100", "Verif.Props.ScoreRange.C40_large_counts"], "note": "False in full: with float64 arithmetic the best value can score slightly below or above 100, and counts above 2^53 can score 200. Proved for every rounding with relative error u: scores decrease with the measure, lie in [0, 100(1+u)^2], and the best is within 100(1-u)^2..100(1+u)^2 (counts up to 2^53); exact arithmetic satisfies the whole statement."},
 {"property": "C41", "status": "partial", "theorems": ["Verif.Props.ScoreAverage.C41_exact", "Verif.Props.ScoreAverage.C41_error_partial", "Verif.Props.ScoreAverage.C41_nan", "Verif.Props.ScoreAverage.C41_bounds_partial", "Verif.Props.ScoreAverage.C41_order_partial", "Verif.Props.ScoreAverage.C41_bounds_fail", "Verif.Props.ScoreAverage.C41_order_fails"], "note": "False in full: with float64 arithmetic the average of three equal scores differs from the score, and the order of additions matters. Proved for every rounding: the average is the mean up to two roundings for each score and one more; it is NaN exactly when nothing was added; exact arithmetic satisfies the whole statement."},
 {"property": "C42", "status": "partial", "theorems": ["Verif.Props.BenchScore.C42_partial", "Verif.Props.BenchScore.C42_exact_partial", "Verif.Props.BenchScore.C42_original_partial", "Verif.Props.BenchScore.C42_original_exact_partial", "Verif.Props.BenchScore.C42_alone", "Verif.Props.BenchScore.C42_fails"], "note": "False in full: one test that does not tell handlers apart makes the score by tests (and the default and the original score) NaN, and one measure that no test tells apart makes the score by measures NaN. Proved: no panic; exactly when each of the four scores is a number; percentages and 100 for a handler nothing is better than, up to stated rounding, and exactly without rounding. Counts, weights and numbers of results are limited to 2^53."},
 {"property": "C43", "status": "partial", "theorems": ["Verif.Props.WarnScore.C43_percentages_partial", "Verif.Props.WarnScore.C43_none_partial", "Verif.Props.WarnScore.C43_tests", "Verif.Props.WarnScore.C43_unknown_handler", "Verif.Props.WarnScore.C43_value_partial", "Verif.Props.WarnScore.C43_value_exact_partial", "Verif.Props.WarnScore.C43_removal_partial", "Verif.Props.WarnScore.C43_registry", "Verif.Props.WarnScore.C43_reported_partial", "Verif.Props.WarnScore.C43_other_falls", "Verif.Props.WarnScore.C43_fails"], "note": "False as stated: a handler whose warning is not registered can score minus infinity (C43_fails), and removing a warning of one handler can lower the score of another (C43_other_falls). Proved with rounding, for data of any parsed text whose warnings are registered and have instances: all scores are percentages, also end to end from the managers' reports (C43_reported_partial); a handler without warnings has 100 except for the type by-test, which is always 0 (C43_tests); removing warnings of a handler never lowers its own scores; the score is the weighted mean of shares, up to rounding (C43_value_partial). Asking for a handler without warning data panics (C43_unknown_handler). Small weights and counts assumed (whole numbers below 2^53). Other output may come before the reports."},
 {"property": "C44", "status": "proved", "theorems": ["Verif.Props.Filter.C44_include", "Verif.Props.Filter.C44_exclude", "Verif.Props.Filter.C44_union", "Verif.Props.Filter.C44_partition", "Verif.Props.Filter.C44_no_filter", "Verif.Props.Filter.C44_configured", "Verif.Props.Filter.C44_size", "Verif.Props.Filter.C44_nil_group_panics", "Verif.Props.Filter.C44_tests_too", "Verif.Props.Filter.C44_plus_keepers_have_no_tests", "Verif.Props.Filter.C44_unnamed_not_excluded"], "note": "For all arguments without a nil group (which panics: C44_nil_group_panics) and any order of maps. Found on the way: the filter for handlers is applied to tests too, so the keepers with include filters have no tests (C44_plus_keepers_have_no_tests), and names are looked up in the warnings, so a handler these do not know is compared by its tag and not excluded (C44_unnamed_not_excluded)."},
 {"property": "C45", "status": "partial", "theorems": ["Verif.Props.Keeper.C45_once", "Verif.Props.Keeper.C45_first", "Verif.Props.Keeper.C45_listing_partial", "Verif.Props.Keeper.C45_determined_partial", "Verif.Props.Keeper.C45_empty_tag_panics", "Verif.Props.Keeper.C45_fails", "Verif.Props.Keeper.C45_configured"], "note": "Registration once: proved for every history. The listing is proved for every history without an empty tag; an empty tag beside another makes listing panic and leaves an unsorted list behind (C45_empty_tag_panics), so the claim as stated is false (C45_fails)."},
 {"property": "C46", "status": "proved", "theorems": ["Verif.Props.Chart.C46_size_defined", "Verif.Props.Chart.C46_size_number", "Verif.Props.Chart.C46_size_other", "Verif.Props.Chart.C46_smallest", "Verif.Props.Chart.C46_wider", "Verif.Props.Chart.C46_shown", "Verif.Props.Chart.C46_all_shown", "Verif.Props.Chart.C46_ticks", "Verif.Props.Chart.C46_reverse"], "note": "Scores are given as total functions (a keeper that is missing panics). A score that is not a number does not widen the chart and is not shown. Ticks are modelled on integers up to 100, where the float arithmetic is exact."},
 {"property": "C47", "status": "partial", "theorems": ["Verif.Props.GinParse.C47_fails", "Verif.Props.GinParse.C47_parse_iff_partial", "Verif.Props.GinParse.C47_accepts", "Verif.Props.GinParse.C47_gin_format_partial"], "note": "What is accepted and returned is exact for every line. False in full: method and URL are left out unless the last part is exactly two fields (a path with a blank, an error text); proved that gin's default format is read back for paths without white space, bars and quotes at the ends."},
 {"property": "C48", "status": "partial", "theorems": ["Verif.Props.GinWriter.C48_fails", "Verif.Props.GinWriter.C48_line", "Verif.Props.GinWriter.C48_refused", "Verif.Props.GinWriter.C48_plain_partial", "Verif.Props.GinWriter.C48_error_partial", "Verif.Props.GinWriter.C48_traffic", "Verif.Props.GinWriter.C48_not_traffic_partial", "Verif.Props.GinWriter.C48_success", "Verif.Props.GinWriter.C48_gin_request_partial"], "note": "Exact for every text and option. False in full: with Traffic.Parse a line that is no traffic makes a second record at level Debug. Errors are exact: an unknown name in brackets, or a level that is not one of the four standard ones."},
 {"property": "C49", "status": "proved", "theorems": ["Verif.Props.Convert.C49_order", "Verif.Props.Convert.C49_standard", "Verif.Props.Convert.C49_threshold"], "note": "Both conversions, all integer levels. Also what a converted threshold lets through."},
 {"property": "C50", "status": "proved", "theorems": ["Verif.Props.CountWriter.C50_counts", "Verif.Props.CountWriter.C50_interleaved", "Verif.Props.CountWriter.C50_flash", "Verif.Props.CountWriter.C50_flash_all", "Verif.Props.CountWriter.C50_sloggy_all"], "note": "The counter is a uint64: the number is exact below 2^64 and modulo 2^64 beyond. Any interleaving of writes of several goroutines; composition with flash and sloggy."},
 {"property": "C51", "status": "proved", "theorems": ["Verif.Props.C51_flash_write_failures", "Verif.Props.SloggyDerive.C51_sloggy_write_failure"], "note": "Both handlers; for sloggy with the exact bytes received by the writer."},
 {"property": "C52", "status": "proved", "theorems": ["Verif.Props.Creator.C52_refused", "Verif.Props.Creator.C52_with_handlers", "Verif.Props.Creator.C52_only_loggers", "Verif.Props.Creator.C52_panic", "Verif.Props.Creator.C52_links_summary"], "note": "For functions that return something; a handler function that returns nil makes NewLogger panic, exactly then."},
 {"property": "C53", "status": "partial", "theorems": ["Verif.Props.Trace.C53_output", "Verif.Props.Trace.C53_determined", "Verif.Props.Trace.C53_accepts", "Verif.Props.Trace.C53_fails", "Verif.Props.Trace.C53_one_line_partial"], "note": "Indent and text of every call are exact; one line per call needs texts without newlines, since messages are printed unquoted (C53_fails)."},
 {"property": "C54", "status": "proved", "theorems": ["Verif.Props.Enum.C54_parse_iff", "Verif.Props.Enum.C54_round_trip", "Verif.Props.Enum.C54_others_refused", "Verif.Props.Enum.C54_printing_injective", "Verif.Props.Enum.C54_all", "Verif.Props.Enum.C54_headers_injective", "Verif.Props.Enum.C54_list", "Verif.Props.Enum.C54_item_names"], "note": "Parsing ignores case as strings.ToLower does; assumption Letters.Lowers."},
 {"property": "C55", "status": "proved", "theorems": ["Verif.Props.C55_flash_no_deadlock"], "note": ""},
 {"property": "C56", "status": "proved", "theorems": ["Verif.Props.SloggyThreads.C56_sloggy_no_deadlock"], "note": "Every reachable state of any finite set of goroutines has a continuation that finishes every call."},
 {"property": "C57", "status": "partial", "theorems": ["Verif.Props.WarnMore.C57_panics", "Verif.Props.WarnMore.C57_panics_iff_partial"], "note": "False as stated (C57_panics). Exact condition proved: it panics if and only if a report printed a warning that was never predefined."},
 {"property": "C58", "status": "partial", "theorems": ["Verif.Props.WarnMore.C58_forgets", "Verif.Props.WarnMore.C58_partial"], "note": "False as stated: a report without warnings removes what an earlier text said about the handler (C58_forgets). Holds if each report of the second text has a warning."},
 {"property": "C59", "status": "partial", "theorems": ["Verif.Props.BenchLines.C59_partial", "Verif.Props.BenchLines.C59_one_processor", "Verif.Props.BenchLines.C59_read_iff", "Verif.Props.BenchLines.C59_fails"], "note": "Every line is read exactly if the number of processors is not 1: package testing leaves out the suffix then, the pattern asks for it, and the line is ignored without an error (C59_one_processor, C59_fails)."},
 {"property": "C60", "status": "partial", "theorems": ["Verif.Props.Setup.C60_partial", "Verif.Props.Setup.C60_erased", "Verif.Props.Setup.C60_lookup"], "note": "False in full: a verification report that says None erases what the benchmark run found for the handler (C60_erased). C60_partial gives the exact result for every handler, level and name, including that case. C60_lookup: a name that belongs to one tag is looked up as that tag for every map order. The guard: the reports satisfy OkRun (as for C38), function names do not begin with Handler[, other marked lines name handlers or follow the heading of the list of handlers by warning. Other output may come before the verification reports."},
 {"property": "C61", "status": "proved", "theorems": ["Verif.Props.Cache.C61_served", "Verif.Props.Cache.C61_keys", "Verif.Props.Cache.C61_drawn_once", "Verif.Props.Cache.C61_finishes"], "note": "Any number of requests, interleaved at the accesses to the shared map in any order; drawing itself is arbitrary. Keys of different charts differ because both kinds can be split at the last colon."},
 {"property": "C62", "status": "partial", "theorems": ["Verif.Props.Bar.C62_partial", "Verif.Props.Bar.C62_test", "Verif.Props.Bar.C62_handler", "Verif.Props.Bar.C62_nothing", "Verif.Props.Bar.C62_rates", "Verif.Props.Bar.C62_hidden"], "note": "True for charts of tests. False for charts of handlers in two cases, both shown by a witness: GB/s and TB/s are always zero (C62_rates), and for a handler whose tag is also that of a test the test is shown (C62_hidden). C62_handler says exactly what is shown for handlers."},
 {"property": "C63", "status": "partial", "theorems": ["Verif.Props.Names.C63_partial", "Verif.Props.Names.C63_names", "Verif.Props.Names.C63_space", "Verif.Props.Names.C63_bracket"], "note": "False for names with white space (C63_space) or with ]=\" in them (C63_bracket). C63_names says for every output which name every tag has."},
 {"property": "C64", "status": "partial", "theorems": ["Verif.Props.WarnViews.C64_reports_partial", "Verif.Props.WarnViews.C64_server_partial", "Verif.Props.WarnViews.C64_agrees", "Verif.Props.WarnViews.C64_listed", "Verif.Props.WarnViews.C64_any", "Verif.Props.WarnViews.C64_any_text", "Verif.Props.WarnViews.C64_loose"], "note": "Proved for reports that can be read back (OkRun, as in C38): the views by test and by warning are exactly those of the additions made, for one text (C64_reports_partial) and for benchmark and verification output read one after the other (C64_server_partial); counts agree with the view by handler for one text (C64_agrees). For any texts the two views are consistent with each other (C64_any, C64_any_text). The agreement with the view by handler is false for the server (C64_listed: a handler reported clean by the verification run is still listed and counted under the warnings of the benchmark run) and for arbitrary texts (C64_loose). Other output may come before the reports."},
 {"property": "C65", "status": "partial", "theorems": ["Verif.Props.Summary.C65_partial", "Verif.Props.Summary.C65_blank", "Verif.Props.Summary.C65_unnamed", "Verif.Props.Summary.C65_links_only"], "note": "False in full: a blank line in a summary ends it and loses the links (C65_blank), a creator with links but no summary prints nothing (C65_links_only), and the name of a handler with a summary but without a report is empty instead of the tag (C65_unnamed). C65_partial gives for every tag the exact summary, links and name, any lines between the suites, under the guard OkCreator: names and links without white space around them and link names without an arrow after their start, no blank line in a summary, lines shorter than the scanner's limit."},
 {"property": "C66", "status": "partial", "theorems": ["Verif.Props.BenchChecks.C66_never_partial", "Verif.Props.BenchChecks.C66_never_decoding_partial", "Verif.Props.BenchChecks.C66_fails"], "note": "False: the counter is made but never run, so the check never reports anything. Proved: it never reports (hence never wrongly); the negation of the full statement with a line that has a duplicate."},
 {"property": "C67", "status": "partial", "theorems": ["Verif.Props.BenchChecks.C67_exact_partial", "Verif.Props.BenchChecks.C67_terminated_partial", "Verif.Props.BenchChecks.C67_lost_partial", "Verif.Props.BenchChecks.C67_fields_partial", "Verif.Props.BenchChecks.C67_fails"], "note": "False for an unterminated last line that fills the read buffer exactly (its length is a multiple of 4096 if it has no carriage return): it is not verified. Proved: exactly which lines are handed to the checks, in order up to the first error; all of them if the last line is terminated; for the check `fields` error iff a line lacks a field; the negation."},
 {"property": "C68", "status": "partial", "theorems": ["Verif.Props.BenchChecks.C68_finder_partial", "Verif.Props.BenchChecks.C68_finder_warning_partial", "Verif.Props.BenchChecks.C68_finder_skipped_partial", "Verif.Props.BenchChecks.C68_fields", "Verif.Props.BenchChecks.C68_fails"], "note": "Proved: no report iff no expected value is at fault (any depth, any order of maps), and the report has exactly the last names of the fields at fault; the variants with warnings; the report of `fields`. False: names are not given by path, two different faults give the same report (negation proved)."},
 {"property": "C69", "status": "partial", "theorems": ["Verif.Props.BenchChecks.C69_builder_partial", "Verif.Props.BenchChecks.C69_checker_partial", "Verif.Props.BenchChecks.C69_fails"], "note": "Proved: every group the builder makes, for all random numbers, limits and names, passes its check at exactly the limit once decoded; exactly which lines pass the checker. False: a line in which the group is missing passes (negation proved)."},
 {"property": "C70", "status": "proved", "theorems": ["Verif.Props.BenchFlash.C70_flash", "Verif.Props.BenchFlash.C70_flash_embedded"], "note": "For all twelve benchmarks; the hypotheses on the surroundings (printable times and source positions, a stack of at least seven frames, json.Unmarshal faithful, integers of 64 bits and the text of pi decoded to the expected float64 values) are in the structures World and Decoding. That the check for duplicates finds nothing says little: see C66."},
 {"property": "C71", "status": "proved", "theorems": ["Verif.Props.BenchFlash.C71_load", "Verif.Props.BenchFlash.C71_trim"], "note": "Texts whose last line is not terminated are read by the same loop as in C67 (loadLoop_eq)."},
 {"property": "C72", "status": "proved", "theorems": ["Verif.Props.BenchMore.C72_matcher", "Verif.Props.BenchMore.C72_sourcerer", "Verif.Props.BenchMore.C72_verify", "Verif.Props.BenchMore.C72_verify_fields", "Verif.Props.BenchMore.C72_undecodable", "Verif.Props.BenchMore.C72_disabled"], "note": "The matcher is stated for a mapping to upper case that is idempotent, and for the call with a nil map, in which the map is normalised twice. C72_verify allows checks that change the manager as long as their verdicts stay the same."},
 {"property": "C73", "status": "partial", "theorems": ["Verif.Props.VerifyComplex.C73_program", "Verif.Props.VerifyComplex.C73_expected_partial", "Verif.Props.VerifyComplex.C73_flash_partial", "Verif.Props.VerifyComplex.C73_suite", "Verif.Props.VerifyComplex.C73_hidden", "Verif.Props.VerifyComplex.C73_quoted", "Verif.Props.VerifyComplex.C73_fails"], "note": "False in full (C73_fails): a group in which nothing is logged and whose name is that of an attribute given before on the same level takes the place of that attribute in the expected map and is then removed, while the handler keeps the attribute (C73_hidden: `W+C GC M`). C73_expected_partial and C73_flash_partial say exactly this: the comparison succeeds if and only if no attribute is hidden in this way. C73_flash_partial leaves out group characters that cannot stand in a JSON string as they are (C73_quoted: with a quotation mark the line of flash cannot be decoded) and programs with 9000 or more derivations (limit of encoding/json). The 35 programs of the suite always match (C73_suite)."},
 {"property": "C74", "status": "proved", "theorems": ["Verif.Props.VerifyFlash.C74_conforming", "Verif.Props.VerifyFlash.C74_flash", "Verif.Props.VerifyFlash.flash_contract", "Verif.Props.VerifyFlash.flash_spells"], "note": "For any handler meeting Contract (enabled from its level upwards; a line with the built-in members and those of the attributes in the documented places; replacement functions applied) and Spells (small letters in names are not escaped), and flash is shown to be such a handler. Hypotheses in Around: JSON decoding is faithful, numerals of the values in the suite are decoded to these values, the upper and lower case of the words used, formatted times are read back to their date, and the clock stays within one day. TestSlogTest (testing/slogtest of the standard library) is not modelled."},
 {"property": "C75", "status": "partial", "theorems": ["Verif.Props.VerifyRecorded.C75_recorded_partial", "Verif.Props.VerifyRecorded.C75_settings", "Verif.Props.VerifyRecorded.C75_fails"], "note": "False in full (C75_fails: TimeSeconds expected makes TestLogAttributes note that TimeMillis was not seen). For every handler the exceptions are exactly those in Allowed (three pairs of stray warnings, LevelWrong for LevelCase, SourceCaller for SourceKey, a skipped test) and the mismatch of TestComplexCases. TestSlogTest is not modelled."},
 {"property": "C76", "status": "partial", "theorems": ["Verif.Props.VerifyRecorded.C76_quiet_partial", "Verif.Props.VerifyRecorded.C76_fails"], "note": "False in full (C76_fails: TestComplexCases adds a mismatch without asking). For every handler this is the only thing that is added, and then something failed."},
 {"property": "C77", "status": "partial", "theorems": ["Verif.Props.VerifyRecorded.C77_mentioned_partial", "Verif.Props.VerifyRecorded.C77_silent", "Verif.Props.VerifyRecorded.C77_fails"], "note": "False in full (C77_fails, with flash: TimeSeconds is never mentioned, nor are NoNilValue and GroupAttrMsgTop: C77_silent). Proved for 23 warnings, and for 4 more unless they are overruled by others. Open: Duplicates, LevelCase."},
 {"property": "C78", "status": "partial", "theorems": ["Verif.Props.SloggyReplace.C78_sloggy_partial", "Verif.Props.SloggyReplace.C78_kept_partial", "Verif.Props.SloggyReplace.C78_fails"], "note": "False in full (C78_fails): if all built-in fields are removed and attributes were given or groups opened before, the line begins with a brace and a comma. C78_sloggy_partial is exact for every function: the line is JSON if and only if something is left of the built-in fields or the handler has no prefix, and then it has exactly the members left; C78_kept_partial is the simple sufficient condition."},
 {"property": "C79", "status": "partial", "theorems": ["Verif.Props.TagNames.C79_exact", "Verif.Props.TagNames.C79_names", "Verif.Props.TagNames.C79_served_partial", "Verif.Props.TagNames.C79_fails"], "note": "False as stated: `Name` writes to a map without a mutex, and the Go runtime ends the program if two goroutines meet there. Proved exactly: some interleaving ends the program if and only if one request asks for a name that is not in the cache and another one asks for any name. Whatever happens, each name a request gets is the right one. With all names in the cache, or one request asking, everybody is served. Tags of tests with their source in front (`Verify.X`) are named for the first time on the page of warnings, since the parser names them before the source is added (internal/data/warnings_parser.go:213); that is said here and not derived from the model of the parser. Left out: a read that has begun before a write begins."},
 {"property": "C80", "status": "partial", "theorems": ["Verif.Props.LazyList.C80_exact", "Verif.Props.LazyList.C80_answered", "Verif.Props.LazyList.C80_served_partial", "Verif.Props.LazyList.C80_keepers", "Verif.Props.LazyList.C80_fails"], "note": "False as stated: lists are made without a mutex when they are first asked for, and are visible before they are complete. Proved exactly, for all four kinds of such functions: some interleaving shows a wrong list if and only if two requests ask for a list that has not been made and is not empty. A list that has been made is shown right to everybody; each call is answered after a bounded number of steps. `C80_keepers` applies this to the list of keepers, which is on every page and not made before pages are served. Not covered: aliasing of a list already returned, panics of sorting while the list changes, `dataWarning.Instances`."},
 {"property": "C81", "status": "partial", "theorems": ["Verif.Props.Links.C81_routes", "Verif.Props.Links.C81_test", "Verif.Props.Links.C81_handler", "Verif.Props.Links.C81_keeper", "Verif.Props.Links.C81_text", "Verif.Props.Links.C81_chart", "Verif.Props.Links.C81_bench", "Verif.Props.Links.C81_keeper_shown", "Verif.Props.Links.C81_keepers", "Verif.Props.Links.C81_fails"], "note": "False in full (C81_fails: the page of a benchmark within a benchmark, whose tag has a slash, cannot be reached). Exactly the tags without slash, question mark, number sign and percent escape work (C81_test, C81_handler), and between slashes also not empty, one dot or two dots (C81_keeper, C81_text, C81_chart); for all benchmark texts in C81_bench, for the keepers of the program in C81_keepers; no path has two routes (C81_routes)."},
 {"property": "C82", "status": "proved", "theorems": ["Verif.Props.Texts.C82_cache", "Verif.Props.Texts.C82_distinct", "Verif.Props.Texts.C82_texts", "Verif.Props.Texts.C82_pages"], "note": "C82_texts for the texts of the program and any files, with the links of the home page; C82_cache for any list of items, C82_distinct if names are not used twice; C82_pages for any templates. Writing to the connection is taken not to fail."},
 {"property": "C83", "status": "proved", "theorems": ["Verif.Props.Tabular.C83_tables"], "note": "For all texts with a history of results (History, as in C37). What a row looks like is left to the library for tables."},
 {"property": "C84", "status": "partial", "theorems": ["Verif.Props.Tabular.C84_listing_partial", "Verif.Props.Tabular.C84_text", "Verif.Props.Tabular.C84_instance", "Verif.Props.Tabular.C84_fails"], "note": "False in full (C84_fails: a warning read before any line with a level is kept under level 0 and never listed). Warnings of the four levels are all listed, once and in order (C84_listing_partial), the text is made of exactly these (C84_text) and each instance is shown completely (C84_instance)."},
 {"property": "C85", "status": "proved", "theorems": ["Verif.Props.BenchRun.C85_run", "Verif.Props.BenchRun.C85_flash"], "note": "For runs that come to their end (a panic ends the run); counts below 2^63. The verification of all benchmarks of the suite is covered, so that no other part of it adds or removes a warning NoHandlerCreation."},
 {"property": "C86", "status": "partial", "theorems": ["Verif.Props.BenchFiled.C86_partial", "Verif.Props.BenchFiled.C86_own", "Verif.Props.BenchFiled.C86_fails"], "note": "False in full (C86_fails: the warning NotDisabled is filed under the handler, not under Disabled; so are TestError, Unused, and Mismatch of BigGroup and Logging; the benchmarks with attributes or groups of the handler use tags like WithAttrsSimple:Basic). C86_partial says for each where it is filed; C86_own is the claim for the four simple benchmarks. For texts whose first line is not blank."},
 {"property": "C87", "status": "partial", "theorems": ["Verif.Props.ScoreChart.C87_drawn", "Verif.Props.ScoreChart.C87_partial", "Verif.Props.ScoreChart.C87_fails", "Verif.Props.ScoreChart.C87_marks"], "note": "False in full (C87_fails: a handler whose second score is 0, the worst one, is not drawn; examples: one without warnings is drawn at 0 even in charts that begin at 75; labels of low points go below the chart). C87_drawn says what is drawn in all cases, C87_partial has the exact guards. The order of labels is for points of different height: the comparison >= is no strict order, and sort.Slice says nothing about equal ones. Positions of labels are not rounded."},
 {"property": "C88", "status": "partial", "theorems": ["Verif.Props.BenchDepends.C88_partial", "Verif.Props.BenchDepends.C88_rounded_partial", "Verif.Props.BenchDepends.C88_size_partial", "Verif.Props.BenchDepends.C88_fails"], "note": "False with the rounding of float64 (C88_fails: two orders of the map of tests give different scores for the same results). C88_partial is the claim without rounding, C88_rounded_partial with any rounding if the included tests are visited in the same order, C88_size_partial for the axes of the keeper Size."},
 {"property": "C89", "status": "partial", "theorems": ["Verif.Props.AxisAsk.C89_partial", "Verif.Props.AxisAsk.C89_fails"], "note": "False in one point (C89_fails): a handler that has no result for a test is shown with zeros in the tables of measures, better than all others. C89_partial is the rest, with any rounding."},
 {"property": "C90", "status": "partial", "theorems": ["Verif.Props.AxisAsk.C90_exact", "Verif.Props.AxisAsk.C90_page", "Verif.Props.AxisAsk.C90_partial", "Verif.Props.AxisAsk.C90_fails"], "note": "False (C90_fails): asking for a test that does not count for a handler writes to a map without a lock. C90_exact says exactly when the program can be ended, C90_page that two requests for the page suffice as soon as a test has no column, C90_partial when nothing can happen."},
 {"property": "C91", "status": "proved", "theorems": ["Verif.Props.BenchFormula.C91_near", "Verif.Props.BenchFormula.C91_exact", "Verif.Props.BenchFormula.C91_close", "Verif.Props.BenchFormula.C91_limits"], "note": "C91_near is for any rounding, with factors that come from the number of roundings; C91_exact is without rounding, C91_close with 53 bits (no underflow or overflow, as everywhere in the model of floating point numbers). C91_limits: the best and the worst exist. When the scores are numbers at all is C42. The original calculation is not covered."},
 {"property": "C92", "status": "partial", "theorems": ["Verif.Props.WarnHTML.C92_exact_partial", "Verif.Props.WarnHTML.C92_shown_partial", "Verif.Props.WarnHTML.C92_fails", "Verif.Props.WarnHTML.C92_report_fails", "Verif.Props.WarnHTML.C92_attribute_fails", "Verif.Props.WarnHTML.C92_rest_fails"], "note": "False in full: the text is not escaped (C92_fails; C92_report_fails goes from a report to a script in the page; C92_attribute_fails for the address of the link; C92_rest_fails: text behind the place of a caller is dropped). C92_exact_partial: for every text exactly when it is shown as text: if nothing in a line, or in the test and the message of the line of a caller, starts a tag or a reference, and the file has no quotation mark or greater-than sign. C92_shown_partial: in particular without any special characters."},
 {"property": "C93", "status": "partial", "theorems": ["Verif.Props.WarnButtons.C93_exact_partial", "Verif.Props.WarnButtons.C93_distinct_partial", "Verif.Props.WarnButtons.C93_fails", "Verif.Props.WarnButtons.C93_report_fails", "Verif.Props.WarnButtons.C93_unseen", "Verif.Props.WarnButtons.C93_line_fails"], "note": "False in full: identifiers repeat if a test adds a warning twice (C93_report_fails, from a report). C93_exact_partial: exactly when buttons work, if names of warnings have no hyphen (no name in infra/warning has one); C93_distinct_partial: in particular if names are distinct. C93_unseen, C93_line_fails: a log line that is not JSON has a row but no button and is never displayed."},
 {"property": "C94", "status": "partial", "theorems": ["Verif.Props.WarnPage.C94_page", "Verif.Props.WarnPage.C94_again", "Verif.Props.WarnPage.C94_needs", "Verif.Props.WarnPage.C94_server", "Verif.Props.WarnPage.C94_shown_partial", "Verif.Props.WarnPage.C94_fails"], "note": "C94_page: for all texts read the page is complete, cells are the counts. C94_again: shown again it is the same, and no other data changes. C94_needs: exactly when the table alone would be cut short by nil. C94_server: cells are the additions of both runs. False in full: a count can belong to a handler without a column (C94_fails, in a text no run prints); C94_shown_partial: not after reading the reports of different handlers. Missing: that every handler counted has a column after reading both runs."},
 {"property": "C95", "status": "partial", "theorems": ["Verif.Props.WarnPage.C95_exact", "Verif.Props.WarnPage.C95_right", "Verif.Props.WarnPage.C95_later_partial", "Verif.Props.WarnPage.C95_fails"], "note": "False in full (C95_fails). C95_exact: the runtime can end the program exactly if two requests ask for the page while a registered warning was never reported. C95_right: data given is right in any case. C95_later_partial: once the page was shown alone, all requests are served."},
 {"property": "C96", "status": "partial", "theorems": ["Verif.Props.WarnCheck.C96_original_partial", "Verif.Props.WarnCheck.C96_check_partial", "Verif.Props.WarnCheck.C96_even_partial", "Verif.Props.WarnCheck.C96_fails"], "note": "False in full (C96_fails): the original score pools the warnings of all levels, the score by data is the mean over levels; with two warnings of one level and one of another they are 44 and 60. C96_original_partial: what the original score is. C96_check_partial: nothing is logged for a handler if the two shares differ by at most 4.99 percent of their mean, and something is if by at least 5.01 percent (in between rounding decides). C96_even_partial: nothing is logged if all levels with weight have the same number of warnings given."},
 {"property": "C97", "status": "partial", "theorems": ["Verif.Props.BenchCheck.C97_logs_partial", "Verif.Props.BenchCheck.C97_original", "Verif.Props.BenchCheck.C97_fails", "Verif.Props.BenchCheck.C97_slow"], "note": "False in full. C97_fails: where all handlers are equal in a test, NaN is compared with NaN, which is logged. C97_slow: a handler nearly as slow as the slowest has the total 0 in the original calculation, which rounds to nine digits, and more than 0 in the newer one. C97_logs_partial: exactly what is logged for a handler, but for a handler each of whose tests says something and whose scores in tests sum up to between 4e-10 and 2.5e-8. C97_original: the original score."},
 {"property": "C98", "status": "proved", "theorems": ["Verif.Props.ChartColor.C98_defined", "Verif.Props.ChartColor.C98_better", "Verif.Props.ChartColor.C98_corners", "Verif.Props.ChartColor.C98_exact", "Verif.Props.ChartColor.C98_muddy", "Verif.Props.ChartColor.C98_flat"], "note": "C98_flat: the condition on the ranges is needed. At the far corners the number converted may be slightly below 0 by rounding, which the conversion truncates to 0. Package chart hands over the ranges; any are allowed for."},
 {"property": "C99", "status": "proved", "theorems": ["Verif.Props.BenchSloggy.C99_sloggy", "Verif.Props.BenchSloggy.C99_sloggy_embedded"], "note": "For all twelve benchmarks; the hypotheses on the surroundings are those of C70 and that formatted times can be quoted by %q as JSON reads it (structures SWorld and Decoding, and SRequest for the requests); C99_sloggy_embedded: the requests of the embedded file meet theirs. That the check for duplicates finds nothing says little: see C66."}
]}
