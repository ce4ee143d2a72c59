# Formal model of go-slog: design

Source: `/repo` (madkins23/go-slog, pinned commit), read as text only.
Model: Lean 4.33.0 under `lean/Verif`, built with `lake build`.

## Trusted base

* The Lean kernel. No axioms of our own, no `sorry`, no `native_decide` or `bv_decide`. Every theorem named in
  MANIFEST.json depends on at most `propext`, `Classical.choice` and `Quot.sound` (checked with `#print axioms` for
  each of them after every milestone). Concrete witnesses are evaluated by the kernel (`decide`, `decide +kernel`).
* The transcription of the Go functions into Lean. Each definition of the model cites the file and lines it
  transcribes. What is simplified is said in the comment at the head of each model file and listed below.
* The meaning of the Go language and of the standard library functions that are transcribed (below), and what is
  assumed of those that are parameters. Such assumptions are hypotheses of the theorems, never axioms.

## Conventions

* Go strings and `[]byte` are `List UInt8` (arbitrary bytes, not only UTF-8).
* Errors are values; `nil` is an explicit case; a panic is the outcome `none` (or a constructor `panic`).
* Loops are structural recursion over the remaining input. Recursion that Go does not bound (the composers on
  cyclic or endless values) is cut at a depth that is a parameter (`Env.stack`), with the outcome `overflow`.
* Goroutines are explicit state machines; a schedule is a list of choices; theorems quantify over all schedules.
* Slices are plain lists where sharing cannot be observed; where it can (C08) there is a memory of backing arrays
  and slices are (array, length, capacity).
* Maps are association lists without order; wherever Go ranges over a map, the order is a parameter (a function that
  returns a permutation), and theorems hold for every order. `sort.Slice` is any function that returns an ordered
  permutation (`Sorter`), so nothing is assumed about stability.
* Specifications that the theorems refer to are in `Verif/Spec` or in the first section of the file of the property,
  and do not use the functions of the model they are about. Models are in `Verif/<Area>`, theorems in `Verif/Props`.
* Beside each theorem there is an `example` that meets its hypotheses with concrete values, and for statements that
  are false a definition `Cxx_statement` and a proof of its negation.

## What is modelled

| Area | Go code | Lean |
|------|---------|------|
| Text of flash | handlers/flash/composer.go, extras.go, handler.go, group.go | Flash/Escape, Composer, Handler, Options; the specifications of what is logged are Spec/LogTree, Replaced and Hollow, that of JSON is Spec/Json (lemmas: JsonSound, JsonJam) |
| Sharing and goroutines of flash | handlers/flash/handler.go, pools.go, composer.go:28-49 | Flash/Heap, Threads |
| Sloggy | handlers/sloggy/composer.go, handler.go, group.go, `strconv.Quote` | Sloggy/Composer, Handler, Quote, Heap, Threads |
| Trace handler | handlers/trace/handler.go | Tools/Trace |
| Replacing attributes | replace/change.go, multiple.go, group.go, creator/madkinsreplattr/creator.go | Replace/Change |
| Warnings | infra/warning/warning.go, level.go, manager.go, and the predefined warnings | Warning/* |
| Creators | infra/creator.go, verify/tests/suite.go:40-51, bench/tests/suite.go:85-91, internal/misc/function.go | Tools/Creator, Summary, FunctionName |
| Benchmark suite | bench/tests/checks.go, data.go, utility.go:55-80, benchmarks.go:57-272, suite.go:62-72, 127-141, logging.go:19-61 | Bench/Checks, Data, Logging, SloggyRun (lemmas: Equal, Finder, Lines, Group, Decode, Builder, FlashRun; Sample is a concrete library); the specification of decoded values is Spec/GoAny |
| Generated test cases | verify/tests/complex.go (without the text of the log statement and debug output), valuer.go:10-16; the warnings of infra/warning/warning.go they and the other tests of the verification suite use | Verify/Warnings, Complex (lemmas: ComplexRun, ComplexMap); the specification of programs is Spec/TestProgram |
| Verification suite | verify/tests/suite.go:53-63, slogtest.go (without TestSlogTest), documented.go, duplicate.go, other.go, replace.go, complex.go:118-147, utility.go, checks.go: every test as a function of the handler under test; assertions add to a count of failures and go on, required ones end the test | Verify/Suite, SlogTests, OtherTests, ReplTests (lemmas: Keeps, Marks; samples: SampleSuite); the specification of what may be recorded is Spec/Recorded, that of a handler that follows the documentation is Spec/Contract |
| Field counter | internal/json/field.go | Count/Model, Count/Lenient |
| Test writers | internal/test/writer.go | Tools/CountWriter |
| Conversions and enumerations | creator/utilzap, creator/utillogrus, the `*_enumer.go` files, type.go, bench_items.go | Tools/Convert, Enum |
| Gin | gin/parser.go, gin/writer.go | Gin/Parser, Writer |
| Data of the server | internal/data/bench.go, bench_parser.go, warnings.go, warnings_parser.go, setup.go, tags.go | Data/* |
| Scores | internal/scoring/axis (benchmarks, warnings, bench, warn, common), score, filter, group, keeper/setup.go | Score/* |
| Charts | cmd/server/chart/score.go (geometry, items and labels), bar.go, cache.go | Server/Chart, ScoreChart, Bar, Cache |
| Texts and buttons of warnings on pages | `ExtraHTML`, `HasLog`, `Log` in internal/data/warnings.go, cmd/server/parts/warnings.gohtml (identifiers and buttons), `toggleElement` in cmd/server/stuff/scripts.js; what a browser makes of markup is a small reader in the specification | Server/WarnHTML, WarnButtons |
| Page of warnings | cmd/server/pages/warnings.gohtml (without markup, summaries, descriptions), internal/data/warnings.go | Server/WarnPage |
| Comparison of scores of warnings | internal/scoring/axis/warn/original.go:86-95, internal/scoring/axis/common/stuff.go:20-29 | Score/WarnCheck |
| Comparisons of scores of benchmarks | internal/scoring/axis/bench/original.go:78-122, 20-31, internal/scoring/axis/common/range.go:56-58, 96-98; how numbers are written is a parameter | Score/BenchCheck |
| Colours in charts of scores | cmd/server/chart/score.go:394-429; rounding and square roots are parameters; `math.Pow(x, 2)` is the rounded product; package chart, which hands over the ranges, is not modelled | Server/ChartColor |
| Menus of tests | internal/data/warnings.go:148-173 with the variable `tests` that keeps the list between questions; the templates that show it are not modelled | Data/TestMenu |
| Status of the field counter | internal/json/field.go:64-119; the word from package go-pluralize and the order of the map are parameters | Count/Status |
| Exhibits beside scores | internal/scoring/axis/benchmarks.go:126-139, 212-218; internal/scoring/axis/warnings.go:99-106; internal/scoring/exhibit; the templates are not modelled | Score/Exhibit |
| Template function `dict` | cmd/server/server.go:446-455 | Server/Dict |
| Requests served at the same time | internal/data/tags.go, and the functions that make lists in internal/scoring/score/keeper.go, internal/data/bench.go and warnings.go | Server/TagNames, LazyList |
| Pages | routes and `pageFunction` of cmd/server/server.go, text.go, the links in cmd/server/pages; what html/template, the browser, net/url and gin do to a link is described as they document it (Server/Pages has the list; it is part of the trusted base of C81 and C82) | Server/Pages |
| Command tabular | cmd/tabular/tabular.go:88-142, and the lists of internal/data/warnings.go it shows | Data/Tabular |
| Tables of scores | the tables of a benchmark axis in cmd/server/pages/scores.gohtml, internal/scoring/axis/benchmarks.go:150-171 | Score/AxisAsk |
| Run of the benchmark suite | bench/tests/suite.go:76-183 | Bench/Run (lemmas: Added) |

## What is not modelled

* Packages outside the repository: the loggers wrapped by most creators, gin itself, gonum/plot-like drawing, HTML templates,
  Markdown, `go test`.
* cmd/server/server.go apart from what is listed, the flags of cmd/tabular and the borders and number formats of its tables, the exhibits of score keepers
  (internal/scoring/exhibit), documentation texts, internal/language.
* Of verify/tests: TestSlogTest (it calls testing/slogtest), debug output, an assertion that fails inside a ReplaceAttr function.
  The order of tests is that of their names. Of bench/tests the timing and memory part of `Run`.
* Diagnostics that the code logs about itself with `slog.Warn`, `slog.Error`, and error texts.
* Methods of logged values that panic; marshalers that themselves log; writers that keep the slice they are given.
* Lists that are filled on demand and kept (`HandlerTags`, `TestTags`, `Levels`, `Warnings`, `Instances`, names of tags): modelled
  for the benchmark data (C37, C62), not for the warnings axis and the warning data, where nothing is read after
  they are first asked for. They are filled without a lock; what this does to requests at the same time is C79 and C80 (Server/TagNames, LazyList). The same holds of averages of tests (C90, Score/AxisAsk) and of the data of warnings (C95).
* Reading files never fails; counters do not overflow unless a theorem says so (C50).
* Inlining: `CurrentFunctionName` is given one frame for each entry of the stack.

## What is assumed of libraries

* `strings.ToLower`, `ToUpper`, `EqualFold`: fields of `Replace.Lib`. `Letters.Good`: on ASCII they do what their documentation
  says. `Letters.Lowers`: `ToLower` works rune by rune, and only U+0130 and U+212A have an ASCII lower case besides ASCII itself.
  Both are shown to be satisfiable. `slog.Value.String` is any function.
* Formatting of times, floats and `json.Marshal`: fields of `Slog.Env`, with what is assumed stated in `Env` hypotheses
  of the theorems (for example that `json.Marshal` returns JSON).
* Regular expressions: `Data/Regex.lean` models the leftmost-first search of package regexp as backtracking on bytes. The argument
  that bytes can stand for runes: each class used contains all bytes that are not ASCII, or none, and all literals are ASCII.
  `\s` is `[\t\n\f\r ]`, `.` is anything but a newline.
* `bufio.Scanner`: `scanLines` gives the lines without their ends; a line of 65536 bytes or more stops it with an error.
* Floating point (C40-C43): `Rounding` is any rounding function that is monotone, exact on integers up to 2^53, and has relative error
  at most `u`; `ieee` (round to nearest, ties to even, 53 bits) is shown to be one. Exponents are unbounded (no overflow or underflow),
  there is one zero, infinities and NaN are explicit. In the benchmark parser and bar charts `float64` is any type (`Floats`).
* `sync.Mutex` excludes; `sync.Pool` is a bag from which any or no element is returned; `Write` of the writer may fail after any number of bytes (C51).
* `unicode.IsSpace` and friends in the field counter: hypothesis `Count.Latin` where a theorem needs the classes of runes.
* `OneUnused` (C29-C31, C38 and later): the warning named Unused is the predefined one; this is guaranteed by C27.

## How the theorems are tested

Realistic faults are put into a scratch copy of the model, one at a time, and the project is rebuilt; `seeded/LOG.jsonl` has a line for each
attempt with the definition, the edit, the claim it breaks, and the theorems that then failed. Where nothing failed, theorems were
added or tightened (field `tightened`).

## Defects of the code found by the proofs

The most consequential ones; each is a theorem (see below).

* flash: a byte that starts a multi-byte character swallows a following quote, so that data can leave its string (C02).
* flash and sloggy: handlers derived twice from one handler can overwrite each other's prefix or group names (C08).
* flash: a replacement function that empties a group loses a comma, the line is not JSON (C17); levels without a name print an empty text (C15).
* sloggy: lines of goroutines mix, the mutex covers the line end only (C22); `strconv.Quote` is not JSON quoting (C20).
* A context value under the key "deadGroup" changes the line (C23).
* The list of warnings of a level is never rebuilt (C28).
* The field counter accepts empty input and anything after an object, any early end except within true, false or null, and commas before a closing bracket or brace; and it counts inside a member "fields" (C34, C35; the exact grammar is `Lenient` in Props/FieldLenient).
* The warning parser dereferences nil on a log line without an instance (C39); listing handlers by warning panics for warnings that were not predefined (C57).
* The verification run's "None" erases the warnings of the benchmark run (C60), while the views by warning still list them (C64).
* Results on one processor are ignored (C59). GB/s and TB/s are zero in the view by handler (C37, C62).
* The filter for handlers is applied to tests (C44). A keeper with an empty tag makes listing panic (C45).
* Scores are NaN as soon as one test does not tell handlers apart (C42), or minus infinity for an unregistered warning (C43).
* A blank line in a handler's summary loses its links (C65). Pages of tests whose tag has a slash cannot be reached (C81).
* Asking an axis whether it has a test writes to unprotected maps, so that two requests for the page of scores can end the server (C90), as can requests for the names
  of tags (C79) and for the page of warnings while some warning was never reported (C95). Handlers without a result for a test are shown as taking no time (C89).
  The comparison of the two scores of warnings logs errors for data as it is usual, since they are different means (C96).
  Those of scores of benchmarks log errors where a test does not tell handlers apart, since NaN is not equal to NaN, and where a total is nearly 0 (C97).
* A benchmark of which there are warnings but no results is in no menu of tests (C100), and asking a field counter for its status moves it on by up to fifteen runes (C101).
* A test that is excluded from an axis by a tag without source is shown as excluded, but is not (C102); no keeper of the program does so.

## Results per property

Status `partial` means: the statement as listed is false or only part of it is proved. If it is false, the
negation is proved with a witness and the rest under a guard; what the guard leaves out is said here, in
MANIFEST.json and beside the theorem. All names are under `Verif.Props`.

### C01 Flash string literals decode to the original text (proved)

Theorems: `C01_flash_string_round_trip`, `C01_flash_string_token`, `C01_flash_string_injective`.

### C02 Logged data cannot break out of its JSON string literal (partial)

Theorems: `C02_flash_injection`, `C02_flash_injection_general`, `C02_flash_confined_iff_partial`, `C02_flash_truncation_duplicates`.

The full statement is false; the negation is proved with a witness, and confinement under an exact guard.

### C03 Flash emits exactly one well-formed JSON object line per record (proved)

Theorems: `C03_flash_one_json_line`.

### C04 Flash output carries exactly the logged content (partial)

Theorems: `C04_flash_content`, `C04_flash_keeps_empty_group`, `C04_flash_content_ideal_partial`, `C04_flash_integer_numeral`.

Full statement false (empty groups from WithGroup remain in some cases); the exact content is proved, and the ideal content under a guard.

### C05 Pre-formatting with WithAttrs is equivalent to logging the attributes (partial)

Theorems: `C05_flash_fails_on_nothing`, `C05_flash_withAttrs_is_logging_partial`, `C05_flash_withAttrs_is_logging_replace`, `C05_flash_withAttrs_twice`.

False for a handler fresh from WithGroup when nothing is printed; proved otherwise.

### C06 WithGroup is equivalent to wrapping in a group attribute (proved)

Theorems: `C06_flash_withGroup_is_group_attr`.

### C07 Trailing empty groups are elided (proved)

Theorems: `C07_flash_trailing_groups_elided`, `C07_flash_groups_printed`, `SloggyDerive.C07_sloggy_trailing_groups_elided`, `SloggyDerive.C07_sloggy_groups_printed`.

Both handlers. Second half: flash by bytes (names without escapes), sloggy by content, both without ReplaceAttr.

### C08 Deriving a handler never changes what existing handlers print (partial)

Theorems: `C08_flash_sibling_overwrites`, `C08_flash_groups_overwritten`, `C08_flash_heap_refines_values`, `C08_flash_immutable_partial`, `SloggyHeap.C08_sloggy_groups_overwritten`, `SloggyHeap.C08_sloggy_without_replace_partial`, `SloggyHeap.C08_sloggy_refines_values_without_replace`, `SloggyHeap.C08_sloggy_heap_refines_values`, `SloggyHeap.C08_sloggy_immutable_partial`.

False in general: flash shares prefixes and both share the group list (witness theorems). Proved: flash when no handler with a non-empty prefix is derived from twice; sloggy without ReplaceAttr for all histories, and with any ReplaceAttr when no handler with open groups is derived from twice.

### C09 Empty WithGroup and empty WithAttrs are neutral (partial)

Theorems: `C09_flash_fails_after_group`, `C09_flash_withAttrs_fails_after_group`, `C09_flash_neutral_plain_partial`, `C09_flash_neutral_loud_partial`, `SloggyDerive.C09_sloggy_fails_after_group`, `SloggyDerive.C09_sloggy_withAttrs_fails_after_group`, `SloggyDerive.C09_sloggy_neutral_plain_partial`, `SloggyDerive.C09_sloggy_neutral_loud_partial`.

False in both handlers after WithGroup (proved); true under the exact guard.

### C10 Concurrent flash logging keeps lines whole (proved)

Theorems: `C10_flash_lines_whole`, `C10_flash_all_done`.

### C11 Pooled buffers and composers never leak between calls (proved)

Theorems: `C11_flash_own_bytes`, `C11_flash_pools_invisible`.

Handle calls; WithAttrs uses the same pools of composers only and is covered by the heap model of C08.

### C12 A failing flash Handle writes nothing (proved)

Theorems: `C12_flash_error_iff`, `C12_flash_failing_writes_nothing`.

Handle fails exactly when a logged value's marshaler fails; then nothing is written.

### C13 Level threshold (proved)

Theorems: `C13_flash_enabled`, `SloggyDerive.C13_sloggy_enabled`.

Both handlers, every derived handler.

### C14 Defaulting of options and extras (proved)

Theorems: `C14_flash_extras_fields`, `C14_flash_level_names`, `C14_flash_options`, `C14_flash_idempotent`.

### C15 Every level gets a level name (partial)

Theorems: `C15_flash_unnamed_level`, `C15_flash_unnamed_level_line`, `C15_flash_level_named_partial`.

The property as stated is false: a level outside the map prints an empty text (witness, and the line it produces). Proved for named levels.

### C16 ReplaceAttr sees the right groups (partial)

Theorems: `C16_flash_replaced_partial`, `C16_flash_nested_names`, `SloggyLine.C16_sloggy_replaced_partial`, `SloggyLine.C16_sloggy_nested_names`.

Both handlers (flash: for functions that leave no group without members; sloggy: at least one built-in field kept); names of group attributes are not passed (negations proved).

### C17 ReplaceAttr cannot corrupt the JSON structure (partial)

Theorems: `FlashHollow.C17_flash_exact_partial`, `FlashHollow.C17_flash_given_partial`, `C17_flash_tame_partial`, `C17_flash_lost_comma`.

The full claim is false (ReplaceAttr emptying a group loses a comma, proved in C17_flash_lost_comma). C17_flash_exact_partial is exact for every function whose results can be printed: the line is JSON if and only if no member follows a hollow group in the same list, and then it has exactly the members left; C17_flash_given_partial says it for given members, C17_flash_tame_partial is a simple sufficient condition. For sloggy see C78.

### C18 LogValuer transparency (partial)

Theorems: `C18_flash_with_replace`, `C18_flash_plain_partial`, `C18_flash_duration`, `SloggyLine.C18_sloggy_without_replace`, `SloggyLine.C18_sloggy_with_replace`, `SloggyLine.C18_sloggy_nil`.

False in flash without ReplaceAttr (durations, times, groups) and in sloggy with ReplaceAttr (proved); proved for flash with ReplaceAttr, for flash with plain kinds, for sloggy without ReplaceAttr byte for byte.

### C19 Sloggy emits one well-formed JSON object line per record (proved)

Theorems: `SloggyLine.C19_sloggy_line`, `SloggyLine.C19_sloggy_replaced`, `SloggyLine.C19_sloggy_no_builtins`.

With and without ReplaceAttr; the condition that a built-in field is kept is necessary (proved).

### C20 Sloggy output is JSON for every string (partial)

Theorems: `SloggyLine.C20_sloggy_bell`, `SloggyLine.C20_sloggy_string_partial`.

False; the exact set of strings for which it holds is proved.

### C21 Sloggy and flash agree (partial)

Theorems: `SloggyDerive.C21_sloggy_flash_agree_partial`, `SloggyDerive.C21_sloggy_flash_same_partial`, `SloggyDerive.C21_sloggy_flash_source_order`.

False only in the order of the members inside source (proved); everything else agrees.

### C22 Sloggy lines stay whole under concurrency (partial)

Theorems: `SloggyThreads.C22_sloggy_lines_not_whole`, `SloggyThreads.C22_sloggy_serialised_partial`, `SloggyThreads.C22_sloggy_own_bytes_partial`, `SloggyThreads.C22_sloggy_line_end`, `SloggyThreads.C22_sloggy_line_end_exclusive`.

The claim is false (C22_sloggy_lines_not_whole: the mutex covers only the line end). Proved: lines are whole when calls do not overlap; in every schedule the bytes of each goroutine are in program order; line ends exclude each other.

### C23 Context values do not influence the log line (partial)

Theorems: `C23_flash_context_matters`, `C23_flash_context_partial`, `SloggyDerive.C23_sloggy_context_matters`, `SloggyDerive.C23_sloggy_context_partial`.

False in both handlers; proved under the exact guard.

### C24 Replace combinators change exactly what they say (proved)

Theorems: `Replace.C24_changeKey`, `Replace.C24_changeValue`, `Replace.C24_removeKey`, `Replace.C24_changeCase`, `Replace.C24_changeCase_other`, `Replace.C24_topCheck`, `Replace.C24_current`, `Replace.C24_idempotent`, `Replace.C24_changeCase_idempotent`.

The letter-case functions of Go's strings package are assumed to do what is documented on ASCII texts (Verif.Letters.Good, shown satisfiable by ascii_good); case-insensitive matching is stated for ASCII keys.

### C25 Multiple composes replace functions (proved)

Theorems: `Replace.C25_multiple_runs`, `Replace.C25_multiple_units`, `Replace.C25_multiple_append`, `Replace.C25_multiple_nested`, `Replace.C25_multiple_assoc`, `Replace.C25_multiple_nested_exception`, `Replace.C25_multiple_never_empty`, `Replace.C25_multiple_composes`, `Replace.C25_package_keeps_empty`.

Flattening a nested Multiple holds exactly unless the attribute is empty on entry (C25_multiple_nested_exception shows the case where an empty attribute enters).

### C26 Non-standard flash plus replacement equals standard flash (proved)

Theorems: `Replattr.C26_replattr_same_line`, `Replattr.C26_replattr_same_basics`, `Replattr.C26_replattr_renames_in_group`.

Stronger than the property: the whole line, for derived handlers, every level, with or without a ReplaceAttr of the user. Guard: no attribute is named message, msg, lvl or level (C26_replattr_renames_in_group shows why); if the user has a ReplaceAttr, it invents no such key inside groups and no attribute has an empty key without being a group.

### C27 Warning registry is consistent (proved)

Theorems: `WarnRegistry.C27_lookup`, `WarnRegistry.C27_create_returns_first`, `WarnRegistry.C27_create_again_changes_nothing`, `WarnRegistry.C27_registered`.

Every sequence of creations and listings.

### C28 WarningsForLevel lists the registered warnings of a level (partial)

Theorems: `WarnRegistry.C28_lists_registered_partial`, `WarnRegistry.C28_lists_unique`, `WarnRegistry.C28_lists_frozen`, `WarnRegistry.C28_listing_goes_stale`.

False as stated: the tree is built by the first listing and never again, so warnings created later are missing (C28_listing_goes_stale refutes C28_statement). Proved: if all creations come before the first listing the listing is exactly the registered warnings of the level, sorted by name, whatever sort is used.

### C29 Warning manager bookkeeping (proved)

Theorems: `WarnManager.C29_bookkeeping`, `WarnManager.C29_nothing_lost`.

Every history of operations, compared with a plain log of additions. Hypothesis OneUnused: any warning named Unused is the predefined one, which C27 guarantees.

### C30 GetWarnings order, pruning and stability (proved)

Theorems: `WarnManager.C30_report`, `WarnManager.C30_report_deterministic`, `WarnManager.C30_report_stable`.

Every history, every sort function and every map iteration order; nil and empty slice are identified.

### C31 Warning gating (proved)

Theorems: `WarnManager.C31_hasWarning`, `WarnManager.C31_hasWarnings`, `WarnManager.C31_skipTestIf`.

Every history, flag and argument list; SkipTestIf looks at the declaration only, not at the flag.

### C32 Warning level names round-trip (proved)

Theorems: `WarnText.C32_parse_iff`, `WarnText.C32_parse_any_text`, `WarnText.C32_parse_ignores_case`, `WarnText.C32_round_trip`, `WarnText.C32_printing`, `WarnText.C32_order`.

For every text. Assumption on unicode.ToLower: structure Letters.Lowers (only U+0130 and U+212A have an ASCII lower case besides ASCII itself).

### C33 Description dedent (partial)

Theorems: `WarnText.C33_dedent`, `WarnText.C33_text_exists`, `WarnText.C33_idempotent_partial`, `WarnText.C33_not_idempotent`, `WarnText.C33_long_line_loses_the_rest`.

C33_dedent is the first half for every text whose lines are shorter than 64 KiB. Idempotence is false as stated: a line ending in two carriage returns loses one each time (C33_not_idempotent); proved for lines without carriage return at the end. A longer line ends the scan (C33_long_line_loses_the_rest).

### C34 FieldCounter counts top-level fields (partial)

Theorems: `FieldCount.C34_counts_of_every_object`, `FieldCount.C34_reports_partial`, `FieldCount.C34_reports_texts_partial`, `FieldCount.C34_statement_fails`, `FieldCount.C34_escaped_duplicate_missed`.

As written the claim is false, and that is proved: a member "fields" whose value is an object is counted inside out at any depth, and keys are compared by spelling. Proved for all JSON objects: Parse succeeds and the counts are exact for every key but "fields"; without such members all reports are exact for spellings, and for texts if no key is escaped.

### C35 FieldCounter rejects what is not JSON (partial)

Theorems: `FieldCount.C35_statement_fails`, `FieldCount.C35_trailing_text_accepted`, `FieldCount.C35_other_start_rejected_partial`, `FieldLenient.C35_exact_partial`, `FieldLenient.C35_json_lenient`.

False as written, proved by the empty input and by any text after an object. C35_exact_partial says for every input exactly what is accepted: what begins with an object in a wider grammar (trailing commas, odd numbers, any case of true/false/null, any white space and any runes in strings), or begins one that something not beginning with a letter completes; everything else is rejected. About package unicode it is assumed what ASCII letters and digits are and that white space is neither.

### C36 FieldCounter is total (proved)

Theorems: `FieldCount.C36_parse_ends`, `FieldCount.C36_consumed_fits`, `FieldCount.C36_consumed_prefix`.

For every byte sequence, with a linear bound on the rounds; the unread rest and the location agree with the runes consumed.

### C37 Benchmark data is indexed consistently (partial)

Theorems: `BenchData.C37_views_partial`, `BenchData.C37_same_pairs`, `BenchData.C37_by_test`, `BenchData.C37_tags`, `BenchData.C37_rates_differ`, `BenchData.C37_tags_stale`.

Both views hold the last result for each handler and test over any sequence of texts, both know the same pairs, and the tag lists are the tags of the views. False in full, proved with witnesses: the rates in GB/s and TB/s are zero in the view by handler, and the tag lists are cached, so they are stale if more is read later.

### C38 Verification report round-trips (partial)

Theorems: `WarnReport.C38_round_trip_partial`, `WarnReport.C38_managers`, `WarnReport.C38_tag`, `WarnMore.C38_bracket`.

Any number of handlers after any use of their managers, texts of several lines and log lines included: the parser finds exactly what was added. False as stated (C38_bracket: a closing bracket in a summary), so the texts are restricted to those that can be read back (OkRun): no closing bracket in summaries, no leading or trailing white space, function names that are words the parser does not take for something else. Other output may come before the reports (Before: lines without the two headings) and after them.

### C39 Warning data parser never crashes (partial)

Theorems: `WarnReport.C39_panics`, `WarnReport.C39_partial`.

False as stated: a log line without a pending instance dereferences nil (C39_panics). No panic on any text without lines that look like log lines, and none on printed reports (C38_round_trip_partial).

### C40 Ranged scores lie between 0 and 100 and reverse the order (partial)

Theorems: `ScoreRange.C40_times_partial`, `ScoreRange.C40_counts_partial`, `ScoreRange.C40_exact`, `ScoreRange.C40_rounding_fails`, `ScoreRange.C40_above_100`, `ScoreRange.C40_large_counts`.

False in full: with float64 arithmetic the best value can score slightly below or above 100, and counts above 2^53 can score 200. Proved for every rounding with relative error u: scores decrease with the measure, lie in [0, 100(1+u)^2], and the best is within 100(1-u)^2..100(1+u)^2 (counts up to 2^53); exact arithmetic satisfies the whole statement.

### C41 Averages stay within bounds and ignore order (partial)

Theorems: `ScoreAverage.C41_exact`, `ScoreAverage.C41_error_partial`, `ScoreAverage.C41_nan`, `ScoreAverage.C41_bounds_partial`, `ScoreAverage.C41_order_partial`, `ScoreAverage.C41_bounds_fail`, `ScoreAverage.C41_order_fails`.

False in full: with float64 arithmetic the average of three equal scores differs from the score, and the order of additions matters. Proved for every rounding: the average is the mean up to two roundings for each score and one more; it is NaN exactly when nothing was added; exact arithmetic satisfies the whole statement.

### C42 Benchmark scores are well defined (partial)

Theorems: `BenchScore.C42_partial`, `BenchScore.C42_exact_partial`, `BenchScore.C42_original_partial`, `BenchScore.C42_original_exact_partial`, `BenchScore.C42_alone`, `BenchScore.C42_fails`.

False in full: one test that does not tell handlers apart makes the score by tests (and the default and the original score) NaN, and one measure that no test tells apart makes the score by measures NaN. Proved: no panic; exactly when each of the four scores is a number; percentages and 100 for a handler nothing is better than, up to stated rounding, and exactly without rounding. Counts, weights and numbers of results are limited to 2^53.

### C43 Warning scores are well defined (partial)

Theorems: `WarnScore.C43_percentages_partial`, `WarnScore.C43_none_partial`, `WarnScore.C43_tests`, `WarnScore.C43_unknown_handler`, `WarnScore.C43_value_partial`, `WarnScore.C43_value_exact_partial`, `WarnScore.C43_removal_partial`, `WarnScore.C43_registry`, `WarnScore.C43_reported_partial`, `WarnScore.C43_other_falls`, `WarnScore.C43_fails`.

False as stated: a handler whose warning is not registered can score minus infinity (C43_fails), and removing a warning of one handler can lower the score of another (C43_other_falls). Proved with rounding, for data of any parsed text whose warnings are registered and have instances: all scores are percentages, also end to end from the managers' reports (C43_reported_partial); a handler without warnings has 100 except for the type by-test, which is always 0 (C43_tests); removing warnings of a handler never lowers its own scores; the score is the weighted mean of shares, up to rounding (C43_value_partial). Asking for a handler without warning data panics (C43_unknown_handler). Small weights and counts assumed (whole numbers below 2^53). Other output may come before the reports.

### C44 Score filters keep exactly the configured handlers (proved)

Theorems: `Filter.C44_include`, `Filter.C44_exclude`, `Filter.C44_union`, `Filter.C44_partition`, `Filter.C44_no_filter`, `Filter.C44_configured`, `Filter.C44_size`, `Filter.C44_nil_group_panics`, `Filter.C44_tests_too`, `Filter.C44_plus_keepers_have_no_tests`, `Filter.C44_unnamed_not_excluded`.

For all arguments without a nil group (which panics: C44_nil_group_panics) and any order of maps. Found on the way: the filter for handlers is applied to tests too, so the keepers with include filters have no tests (C44_plus_keepers_have_no_tests), and names are looked up in the warnings, so a handler these do not know is compared by its tag and not excluded (C44_unnamed_not_excluded).

### C45 Score keepers are listed once and in order (partial)

Theorems: `Keeper.C45_once`, `Keeper.C45_first`, `Keeper.C45_listing_partial`, `Keeper.C45_determined_partial`, `Keeper.C45_empty_tag_panics`, `Keeper.C45_fails`, `Keeper.C45_configured`.

Registration once: proved for every history. The listing is proved for every history without an empty tag; an empty tag beside another makes listing panic and leaves an unsorted list behind (C45_empty_tag_panics), so the claim as stated is false (C45_fails).

### C46 Chart geometry (proved)

Theorems: `Chart.C46_size_defined`, `Chart.C46_size_number`, `Chart.C46_size_other`, `Chart.C46_smallest`, `Chart.C46_wider`, `Chart.C46_shown`, `Chart.C46_all_shown`, `Chart.C46_ticks`, `Chart.C46_reverse`.

Scores are given as total functions (a keeper that is missing panics). A score that is not a number does not widen the chart and is not shown. Ticks are modelled on integers up to 100, where the float arithmetic is exact.

### C47 Gin traffic lines parse exactly (partial)

Theorems: `GinParse.C47_fails`, `GinParse.C47_parse_iff_partial`, `GinParse.C47_accepts`, `GinParse.C47_gin_format_partial`.

What is accepted and returned is exact for every line. False in full: method and URL are left out unless the last part is exactly two fields (a path with a blank, an error text); proved that gin's default format is read back for paths without white space, bars and quotes at the ends.

### C48 Gin writer logs every line once at the right level (partial)

Theorems: `GinWriter.C48_fails`, `GinWriter.C48_line`, `GinWriter.C48_refused`, `GinWriter.C48_plain_partial`, `GinWriter.C48_error_partial`, `GinWriter.C48_traffic`, `GinWriter.C48_not_traffic_partial`, `GinWriter.C48_success`, `GinWriter.C48_gin_request_partial`.

Exact for every text and option. False in full: with Traffic.Parse a line that is no traffic makes a second record at level Debug. Errors are exact: an unknown name in brackets, or a level that is not one of the four standard ones.

### C49 Foreign level conversion is order preserving (proved)

Theorems: `Convert.C49_order`, `Convert.C49_standard`, `Convert.C49_threshold`.

Both conversions, all integer levels. Also what a converted threshold lets through.

### C50 Line counting (proved)

Theorems: `CountWriter.C50_counts`, `CountWriter.C50_interleaved`, `CountWriter.C50_flash`, `CountWriter.C50_flash_all`, `CountWriter.C50_sloggy_all`.

The counter is a uint64: the number is exact below 2^64 and modulo 2^64 beyond. Any interleaving of writes of several goroutines; composition with flash and sloggy.

### C51 Write failures surface as errors (proved)

Theorems: `C51_flash_write_failures`, `SloggyDerive.C51_sloggy_write_failure`.

Both handlers; for sloggy with the exact bytes received by the writer.

### C52 Creators hand out working handlers (proved)

Theorems: `Creator.C52_refused`, `Creator.C52_with_handlers`, `Creator.C52_only_loggers`, `Creator.C52_panic`, `Creator.C52_links_summary`.

For functions that return something; a handler function that returns nil makes NewLogger panic, exactly then.

### C53 Trace handler indents by derivation depth (partial)

Theorems: `Trace.C53_output`, `Trace.C53_determined`, `Trace.C53_accepts`, `Trace.C53_fails`, `Trace.C53_one_line_partial`.

Indent and text of every call are exact; one line per call needs texts without newlines, since messages are printed unquoted (C53_fails).

### C54 Enumerations round-trip (proved)

Theorems: `Enum.C54_parse_iff`, `Enum.C54_round_trip`, `Enum.C54_others_refused`, `Enum.C54_printing_injective`, `Enum.C54_all`, `Enum.C54_headers_injective`, `Enum.C54_list`, `Enum.C54_item_names`.

Parsing ignores case as strings.ToLower does; assumption Letters.Lowers.

### C55 Flash logging cannot deadlock (proved)

Theorems: `C55_flash_no_deadlock`.

### C56 Sloggy logging cannot deadlock (proved)

Theorems: `SloggyThreads.C56_sloggy_no_deadlock`.

Every reachable state of any finite set of goroutines has a continuation that finishes every call.

### C57 Listing handlers by warning never crashes (partial)

Theorems: `WarnMore.C57_panics`, `WarnMore.C57_panics_iff_partial`.

False as stated (C57_panics). Exact condition proved: it panics if and only if a report printed a warning that was never predefined.

### C58 A second report only adds (partial)

Theorems: `WarnMore.C58_forgets`, `WarnMore.C58_partial`.

False as stated: a report without warnings removes what an earlier text said about the handler (C58_forgets). Holds if each report of the second text has a warning.

### C59 Benchmark result lines are read (partial)

Theorems: `BenchLines.C59_partial`, `BenchLines.C59_one_processor`, `BenchLines.C59_read_iff`, `BenchLines.C59_fails`.

Every line is read exactly if the number of processors is not 1: package testing leaves out the suffix then, the pattern asks for it, and the line is ignored without an error (C59_one_processor, C59_fails).

### C60 Setup brings the warnings of both runs together (partial)

Theorems: `Setup.C60_partial`, `Setup.C60_erased`, `Setup.C60_lookup`.

False in full: a verification report that says None erases what the benchmark run found for the handler (C60_erased). C60_partial gives the exact result for every handler, level and name, including that case. C60_lookup: a name that belongs to one tag is looked up as that tag for every map order. The guard: the reports satisfy OkRun (as for C38), function names do not begin with Handler[, other marked lines name handlers or follow the heading of the list of handlers by warning. Other output may come before the verification reports.

### C61 The chart cache never serves one chart for another (proved)

Theorems: `Cache.C61_served`, `Cache.C61_keys`, `Cache.C61_drawn_once`, `Cache.C61_finishes`.

Any number of requests, interleaved at the accesses to the shared map in any order; drawing itself is arbitrary. Keys of different charts differ because both kinds can be split at the last colon.

### C62 Bar charts show what was measured (partial)

Theorems: `Bar.C62_partial`, `Bar.C62_test`, `Bar.C62_handler`, `Bar.C62_nothing`, `Bar.C62_rates`, `Bar.C62_hidden`.

True for charts of tests. False for charts of handlers in two cases, both shown by a witness: GB/s and TB/s are always zero (C62_rates), and for a handler whose tag is also that of a test the test is shown (C62_hidden). C62_handler says exactly what is shown for handlers.

### C63 Handlers are known by the names their benchmarks print (partial)

Theorems: `Names.C63_partial`, `Names.C63_names`, `Names.C63_space`, `Names.C63_bracket`.

False for names with white space (C63_space) or with ]=" in them (C63_bracket). C63_names says for every output which name every tag has.

### C64 The views of the warnings by test and by warning are those of the reports (partial)

Theorems: `WarnViews.C64_reports_partial`, `WarnViews.C64_server_partial`, `WarnViews.C64_agrees`, `WarnViews.C64_listed`, `WarnViews.C64_any`, `WarnViews.C64_any_text`, `WarnViews.C64_loose`.

Proved for reports that can be read back (OkRun, as in C38): the views by test and by warning are exactly those of the additions made, for one text (C64_reports_partial) and for benchmark and verification output read one after the other (C64_server_partial); counts agree with the view by handler for one text (C64_agrees). For any texts the two views are consistent with each other (C64_any, C64_any_text). The agreement with the view by handler is false for the server (C64_listed: a handler reported clean by the verification run is still listed and counted under the warnings of the benchmark run) and for arbitrary texts (C64_loose). Other output may come before the reports.

### C65 What creators say of their handlers reaches the server (partial)

Theorems: `Summary.C65_partial`, `Summary.C65_blank`, `Summary.C65_unnamed`, `Summary.C65_links_only`.

False in full: a blank line in a summary ends it and loses the links (C65_blank), a creator with links but no summary prints nothing (C65_links_only), and the name of a handler with a summary but without a report is empty instead of the tag (C65_unnamed). C65_partial gives for every tag the exact summary, links and name, any lines between the suites, under the guard OkCreator: names and links without white space around them and link names without an arrow after their start, no blank line in a summary, lines shorter than the scanner's limit.

### C66 Duplicated fields in the output of a benchmark are reported (partial)

Theorems: `BenchChecks.C66_never_partial`, `BenchChecks.C66_never_decoding_partial`, `BenchChecks.C66_fails`.

False: the counter is made but never run, so the check never reports anything. Proved: it never reports (hence never wrongly); the negation of the full statement with a line that has a duplicate.

### C67 Every line of the output of a benchmark is verified (partial)

Theorems: `BenchChecks.C67_exact_partial`, `BenchChecks.C67_terminated_partial`, `BenchChecks.C67_lost_partial`, `BenchChecks.C67_fields_partial`, `BenchChecks.C67_fails`.

False for an unterminated last line that fills the read buffer exactly (its length is a multiple of 4096 if it has no carriage return): it is not verified. Proved: exactly which lines are handed to the checks, in order up to the first error; all of them if the last line is terminated; for the check `fields` error iff a line lacks a field; the negation.

### C68 The benchmark checks report exactly the fields that are missing or wrong (partial)

Theorems: `BenchChecks.C68_finder_partial`, `BenchChecks.C68_finder_warning_partial`, `BenchChecks.C68_finder_skipped_partial`, `BenchChecks.C68_fields`, `BenchChecks.C68_fails`.

Proved: no report iff no expected value is at fault (any depth, any order of maps), and the report has exactly the last names of the fields at fault; the variants with warnings; the report of `fields`. False: names are not given by path, two different faults give the same report (negation proved).

### C69 Every big group passes its own check, and nothing else does (partial)

Theorems: `BenchChecks.C69_builder_partial`, `BenchChecks.C69_checker_partial`, `BenchChecks.C69_fails`.

Proved: every group the builder makes, for all random numbers, limits and names, passes its check at exactly the limit once decoded; exactly which lines pass the checker. False: a line in which the group is missing passes (negation proved).

### C70 The benchmark suite finds nothing wrong with flash (proved)

Theorems: `BenchFlash.C70_flash`, `BenchFlash.C70_flash_embedded`.

For all twelve benchmarks; the hypotheses on the surroundings (printable times and source positions, a stack of at least seven frames, json.Unmarshal faithful, integers of 64 bits and the text of pi decoded to the expected float64 values) are in the structures World and Decoding. That the check for duplicates finds nothing says little: see C66.

### C71 The traffic log is loaded line by line (proved)

Theorems: `BenchFlash.C71_load`, `BenchFlash.C71_trim`.

Texts whose last line is not terminated are read by the same loop as in C67 (loadLoop_eq).

### C72 What the other checks of the benchmark suite accept (proved)

Theorems: `BenchMore.C72_matcher`, `BenchMore.C72_sourcerer`, `BenchMore.C72_verify`, `BenchMore.C72_verify_fields`, `BenchMore.C72_undecodable`, `BenchMore.C72_disabled`.

The matcher is stated for a mapping to upper case that is idempotent, and for the call with a nil map, in which the map is normalised twice. C72_verify allows checks that change the manager as long as their verdicts stay the same.

### C73 Generated test cases expect what flash logs (partial)

Theorems: `VerifyComplex.C73_program`, `VerifyComplex.C73_expected_partial`, `VerifyComplex.C73_flash_partial`, `VerifyComplex.C73_suite`, `VerifyComplex.C73_hidden`, `VerifyComplex.C73_quoted`, `VerifyComplex.C73_fails`.

False in full (C73_fails): a group in which nothing is logged and whose name is that of an attribute given before on the same level takes the place of that attribute in the expected map and is then removed, while the handler keeps the attribute (C73_hidden: `W+C GC M`). C73_expected_partial and C73_flash_partial say exactly this: the comparison succeeds if and only if no attribute is hidden in this way. C73_flash_partial leaves out group characters that cannot stand in a JSON string as they are (C73_quoted: with a quotation mark the line of flash cannot be decoded) and programs with 9000 or more derivations (limit of encoding/json). The 35 programs of the suite always match (C73_suite).

### C74 The suite finds nothing wrong with flash but duplicate fields (proved)

Theorems: `VerifyFlash.C74_conforming`, `VerifyFlash.C74_flash`, `VerifyFlash.flash_contract`, `VerifyFlash.flash_spells`.

For any handler meeting Contract (enabled from its level upwards; a line with the built-in members and those of the attributes in the documented places; replacement functions applied) and Spells (small letters in names are not escaped), and flash is shown to be such a handler. Hypotheses in Around: JSON decoding is faithful, numerals of the values in the suite are decoded to these values, the upper and lower case of the words used, formatted times are read back to their date, and the clock stays within one day. TestSlogTest (testing/slogtest of the standard library) is not modelled.

### C75 The suite records expected warnings only (partial)

Theorems: `VerifyRecorded.C75_recorded_partial`, `VerifyRecorded.C75_settings`, `VerifyRecorded.C75_fails`.

False in full (C75_fails: TimeSeconds expected makes TestLogAttributes note that TimeMillis was not seen). For every handler the exceptions are exactly those in Allowed (three pairs of stray warnings, LevelWrong for LevelCase, SourceCaller for SourceKey, a skipped test) and the mismatch of TestComplexCases. TestSlogTest is not modelled.

### C76 Nothing expected, nothing recorded (partial)

Theorems: `VerifyRecorded.C76_quiet_partial`, `VerifyRecorded.C76_fails`.

False in full (C76_fails: TestComplexCases adds a mismatch without asking). For every handler this is the only thing that is added, and then something failed.

### C77 Every expected warning is mentioned (partial)

Theorems: `VerifyRecorded.C77_mentioned_partial`, `VerifyRecorded.C77_silent`, `VerifyRecorded.C77_fails`.

False in full (C77_fails, with flash: TimeSeconds is never mentioned, nor are NoNilValue and GroupAttrMsgTop: C77_silent). Proved for 23 warnings, and for 4 more unless they are overruled by others. Open: Duplicates, LevelCase.

### C78 ReplaceAttr cannot corrupt the JSON structure of sloggy (partial)

Theorems: `SloggyReplace.C78_sloggy_partial`, `SloggyReplace.C78_kept_partial`, `SloggyReplace.C78_fails`.

False in full (C78_fails): if all built-in fields are removed and attributes were given or groups opened before, the line begins with a brace and a comma. C78_sloggy_partial is exact for every function: the line is JSON if and only if something is left of the built-in fields or the handler has no prefix, and then it has exactly the members left; C78_kept_partial is the simple sufficient condition.

### C79 Asking for the names of tags is safe while pages are served (partial)

Theorems: `TagNames.C79_exact`, `TagNames.C79_names`, `TagNames.C79_served_partial`, `TagNames.C79_fails`.

False as stated: `Name` writes to a map without a mutex, and the Go runtime ends the program if two goroutines meet there. Proved exactly: some interleaving ends the program if and only if one request asks for a name that is not in the cache and another one asks for any name. Whatever happens, each name a request gets is the right one. With all names in the cache, or one request asking, everybody is served. Tags of tests with their source in front (`Verify.X`) are named for the first time on the page of warnings, since the parser names them before the source is added (internal/data/warnings_parser.go:213); that is said here and not derived from the model of the parser. Left out: a read that has begun before a write begins.

### C80 Lists made when first asked for are complete while pages are served (partial)

Theorems: `LazyList.C80_exact`, `LazyList.C80_answered`, `LazyList.C80_served_partial`, `LazyList.C80_keepers`, `LazyList.C80_fails`.

False as stated: lists are made without a mutex when they are first asked for, and are visible before they are complete. Proved exactly, for all four kinds of such functions: some interleaving shows a wrong list if and only if two requests ask for a list that has not been made and is not empty. A list that has been made is shown right to everybody; each call is answered after a bounded number of steps. `C80_keepers` applies this to the list of keepers, which is on every page and not made before pages are served. Not covered: aliasing of a list already returned, panics of sorting while the list changes, `dataWarning.Instances`.

### C81 Links on pages lead to what they name (partial)

Theorems: `Links.C81_routes`, `Links.C81_test`, `Links.C81_handler`, `Links.C81_keeper`, `Links.C81_text`, `Links.C81_chart`, `Links.C81_bench`, `Links.C81_keeper_shown`, `Links.C81_keepers`, `Links.C81_fails`.

False in full (C81_fails: the page of a benchmark within a benchmark, whose tag has a slash, cannot be reached). Exactly the tags without slash, question mark, number sign and percent escape work (C81_test, C81_handler), and between slashes also not empty, one dot or two dots (C81_keeper, C81_text, C81_chart); for all benchmark texts in C81_bench, for the keepers of the program in C81_keepers; no path has two routes (C81_routes).

### C82 Texts listed are the ones shown, and a failing template is reported (proved)

Theorems: `Texts.C82_cache`, `Texts.C82_distinct`, `Texts.C82_texts`, `Texts.C82_pages`.

C82_texts for the texts of the program and any files, with the links of the home page; C82_cache for any list of items, C82_distinct if names are not used twice; C82_pages for any templates. Writing to the connection is taken not to fail.

### C83 Tables of tabular show every result once (proved)

Theorems: `Tabular.C83_tables`.

For all texts with a history of results (History, as in C37). What a row looks like is left to the library for tables.

### C84 Listing of tabular shows every warning once (partial)

Theorems: `Tabular.C84_listing_partial`, `Tabular.C84_text`, `Tabular.C84_instance`, `Tabular.C84_fails`.

False in full (C84_fails: a warning read before any line with a level is kept under level 0 and never listed). Warnings of the four levels are all listed, once and in order (C84_listing_partial), the text is made of exactly these (C84_text) and each instance is shown completely (C84_instance).

### C85 Every benchmark is measured once or its omission is reported (proved)

Theorems: `BenchRun.C85_run`, `BenchRun.C85_flash`.

For runs that come to their end (a panic ends the run); counts below 2^63. The verification of all benchmarks of the suite is covered, so that no other part of it adds or removes a warning NoHandlerCreation.

### C86 Warnings of a benchmark are filed under that benchmark (partial)

Theorems: `BenchFiled.C86_partial`, `BenchFiled.C86_own`, `BenchFiled.C86_fails`.

False in full (C86_fails: the warning NotDisabled is filed under the handler, not under Disabled; so are TestError, Unused, and Mismatch of BigGroup and Logging; the benchmarks with attributes or groups of the handler use tags like WithAttrsSimple:Basic). C86_partial says for each where it is filed; C86_own is the claim for the four simple benchmarks. For texts whose first line is not blank.

### C87 The score chart shows every handler in its place (partial)

Theorems: `ScoreChart.C87_drawn`, `ScoreChart.C87_partial`, `ScoreChart.C87_fails`, `ScoreChart.C87_marks`.

False in full (C87_fails: a handler whose second score is 0, the worst one, is not drawn; examples: one without warnings is drawn at 0 even in charts that begin at 75; labels of low points go below the chart). C87_drawn says what is drawn in all cases, C87_partial has the exact guards. The order of labels is for points of different height: the comparison >= is no strict order, and sort.Slice says nothing about equal ones. Positions of labels are not rounded.

### C88 What benchmark scores depend on (partial)

Theorems: `BenchDepends.C88_partial`, `BenchDepends.C88_rounded_partial`, `BenchDepends.C88_size_partial`, `BenchDepends.C88_fails`.

False with the rounding of float64 (C88_fails: two orders of the map of tests give different scores for the same results). C88_partial is the claim without rounding, C88_rounded_partial with any rounding if the included tests are visited in the same order, C88_size_partial for the axes of the keeper Size.

### C89 The tables of scores show what was measured (partial)

Theorems: `AxisAsk.C89_partial`, `AxisAsk.C89_fails`.

False in one point (C89_fails): a handler that has no result for a test is shown with zeros in the tables of measures, better than all others. C89_partial is the rest, with any rounding.

### C90 Asking for the scores of tests is safe while pages are served (partial)

Theorems: `AxisAsk.C90_exact`, `AxisAsk.C90_page`, `AxisAsk.C90_partial`, `AxisAsk.C90_fails`.

False (C90_fails): asking for a test that does not count for a handler writes to a map without a lock. C90_exact says exactly when the program can be ended, C90_page that two requests for the page suffice as soon as a test has no column, C90_partial when nothing can happen.

### C91 Scores are weighted means of positions between the best and the worst result (proved)

Theorems: `BenchFormula.C91_near`, `BenchFormula.C91_exact`, `BenchFormula.C91_close`, `BenchFormula.C91_limits`.

C91_near is for any rounding, with factors that come from the number of roundings; C91_exact is without rounding, C91_close with 53 bits (no underflow or overflow, as everywhere in the model of floating point numbers). C91_limits: the best and the worst exist. When the scores are numbers at all is C42. The original calculation is not covered.

### C92 The extra text of a warning is shown as text (partial)

Theorems: `WarnHTML.C92_exact_partial`, `WarnHTML.C92_shown_partial`, `WarnHTML.C92_fails`, `WarnHTML.C92_report_fails`, `WarnHTML.C92_attribute_fails`, `WarnHTML.C92_rest_fails`.

False in full: the text is not escaped (C92_fails; C92_report_fails goes from a report to a script in the page; C92_attribute_fails for the address of the link; C92_rest_fails: text behind the place of a caller is dropped). C92_exact_partial: for every text exactly when it is shown as text: if nothing in a line, or in the test and the message of the line of a caller, starts a tag or a reference, and the file has no quotation mark or greater-than sign. C92_shown_partial: in particular without any special characters.

### C93 Buttons in lists of warnings display what they stand beside (partial)

Theorems: `WarnButtons.C93_exact_partial`, `WarnButtons.C93_distinct_partial`, `WarnButtons.C93_fails`, `WarnButtons.C93_report_fails`, `WarnButtons.C93_unseen`, `WarnButtons.C93_line_fails`.

False in full: identifiers repeat if a test adds a warning twice (C93_report_fails, from a report). C93_exact_partial: exactly when buttons work, if names of warnings have no hyphen (no name in infra/warning has one); C93_distinct_partial: in particular if names are distinct. C93_unseen, C93_line_fails: a log line that is not JSON has a row but no button and is never displayed.

### C94 The page of warnings is complete and changes nothing (partial)

Theorems: `WarnPage.C94_page`, `WarnPage.C94_again`, `WarnPage.C94_needs`, `WarnPage.C94_server`, `WarnPage.C94_shown_partial`, `WarnPage.C94_fails`.

C94_page: for all texts read the page is complete, cells are the counts. C94_again: shown again it is the same, and no other data changes. C94_needs: exactly when the table alone would be cut short by nil. C94_server: cells are the additions of both runs. False in full: a count can belong to a handler without a column (C94_fails, in a text no run prints); C94_shown_partial: not after reading the reports of different handlers. Missing: that every handler counted has a column after reading both runs.

### C95 Requests for the page of warnings at the same time (partial)

Theorems: `WarnPage.C95_exact`, `WarnPage.C95_right`, `WarnPage.C95_later_partial`, `WarnPage.C95_fails`.

False in full (C95_fails). C95_exact: the runtime can end the program exactly if two requests ask for the page while a registered warning was never reported. C95_right: data given is right in any case. C95_later_partial: once the page was shown alone, all requests are served.

### C96 The two calculations of scores of warnings agree (partial)

Theorems: `WarnCheck.C96_original_partial`, `WarnCheck.C96_check_partial`, `WarnCheck.C96_even_partial`, `WarnCheck.C96_fails`.

False in full (C96_fails): the original score pools the warnings of all levels, the score by data is the mean over levels; with two warnings of one level and one of another they are 44 and 60. C96_original_partial: what the original score is. C96_check_partial: nothing is logged for a handler if the two shares differ by at most 4.99 percent of their mean, and something is if by at least 5.01 percent (in between rounding decides). C96_even_partial: nothing is logged if all levels with weight have the same number of warnings given.

### C97 The two calculations of scores of benchmarks agree (partial)

Theorems: `BenchCheck.C97_logs_partial`, `BenchCheck.C97_original`, `BenchCheck.C97_fails`, `BenchCheck.C97_slow`.

False in full. C97_fails: where all handlers are equal in a test, NaN is compared with NaN, which is logged. C97_slow: a handler nearly as slow as the slowest has the total 0 in the original calculation, which rounds to nine digits, and more than 0 in the newer one. C97_logs_partial: exactly what is logged for a handler, but for a handler each of whose tests says something and whose scores in tests sum up to between 4e-10 and 2.5e-8. C97_original: the original score.

### C98 Colours of points in the score chart follow the scores (proved)

Theorems: `ChartColor.C98_defined`, `ChartColor.C98_better`, `ChartColor.C98_corners`, `ChartColor.C98_exact`, `ChartColor.C98_muddy`, `ChartColor.C98_flat`.

C98_flat: the condition on the ranges is needed. At the far corners the number converted may be slightly below 0 by rounding, which the conversion truncates to 0. Package chart hands over the ranges; any are allowed for.

### C99 The benchmark suite finds nothing wrong with sloggy (proved)

Theorems: `BenchSloggy.C99_sloggy`, `BenchSloggy.C99_sloggy_embedded`.

For all twelve benchmarks; the hypotheses on the surroundings are those of C70 and that formatted times can be quoted by %q as JSON reads it (structures SWorld and Decoding, and SRequest for the requests); C99_sloggy_embedded: the requests of the embedded file meet theirs. That the check for duplicates finds nothing says little: see C66.

### C100 Every test with warnings is in one menu of tests (partial)

Theorems: `TestMenu.C100_menus_partial`, `TestMenu.C100_source_partial`, `TestMenu.C100_same`, `TestMenu.C100_fails`, `TestMenu.C100_separator`.

False in full (C100_fails): a benchmark of which there are warnings but no results is in no menu. C100_menus_partial proves everything else for the server after reading both reports; C100_source_partial is the statement for any source and any list of warnings read; C100_separator: a source given with the separator of tags lists nothing, since the function looks for a colon where tags have a full stop.

### C101 The status of the field counter shows where it is and changes nothing (partial)

Theorems: `CountStatus.C101_status_partial`, `CountStatus.C101_after_parse`, `CountStatus.C101_twice`, `CountStatus.C101_fails`.

False in full (C101_fails): the runes shown after the cursor have been read, so asking again gives another text. C101_status_partial proves the text, and what is left to read afterwards; C101_after_parse: Parse always ends in one of these states; C101_twice: so does asking. The word for the number of fields (package go-pluralize) is a parameter.

### C102 What is shown beside scores says how they were computed (partial)

Theorems: `Exhibit.C102_warnings`, `Exhibit.C102_level_rows`, `Exhibit.C102_warnings_again`, `Exhibit.C102_benchmarks_partial`, `Exhibit.C102_fails`.

Proved for axes of warnings (C102_warnings). False in full for axes of benchmarks (C102_fails): lists show names of tests without their source, so that a tag given without source, which has no effect, looks like the right one. C102_benchmarks_partial: true where the names shown tell the tests in the lists apart, as for the keepers of the program. The templates are not modelled.

### C103 The map that a template hands to a part has the values given last (proved)

Theorems: `Dict.C103_dict`, `Dict.C103_once`.

Values that are not strings are of any type; that it does not panic is that the model, which has no other outcome, is total: the index i+1 is only used if it is in range.
