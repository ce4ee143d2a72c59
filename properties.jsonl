{"id": "C01", "title": "Flash string literals decode to the original text", "statement": "Whenever a string (message, attribute key, string value, Stringer/error/marshaler text) that is valid UTF-8 is logged through the flash handler, the bytes emitted between the two quotes form a legal JSON string body and decode, under the JSON escape rules, to exactly the original bytes.", "quantifier": "every valid UTF-8 byte sequence of every length", "why_tests_cant": "The space of strings is infinite and the encoder carries state across bytes (pending multi-byte sequence, start of the unflushed run); a test touches finitely many interleavings of plain runs, escapes and multi-byte sequences.", "anchors": ["handlers/flash/composer.go: addEscaped, addString, addKey", "handlers/flash/handler.go: Handle"]}
{"id": "C02", "title": "Logged data cannot break out of its JSON string literal", "statement": "For every byte string whatsoever (valid UTF-8 or not) logged as a string through the flash handler, the emitted literal ends exactly at the closing quote the handler writes: no byte of the data can act as the terminating quote or as a dangling escape.", "quantifier": "every byte sequence, including malformed UTF-8", "why_tests_cant": "Injection needs one adversarial byte sequence among infinitely many; passing tests on chosen strings says nothing about the others.", "anchors": ["handlers/flash/composer.go: addEscaped, addString"]}
{"id": "C03", "title": "Flash emits exactly one well-formed JSON object line per record", "statement": "Every successful Handle on a flash handler performs exactly one Write, and the bytes written are one well-formed JSON object followed by a single newline with no other newline inside, for every record and every chain of WithAttrs/WithGroup calls, provided strings and group names are valid UTF-8, group names need no escaping, floats are finite, the time format output needs no escaping, and no ReplaceAttr is configured.", "quantifier": "every record, every attribute tree, every derivation chain of WithAttrs/WithGroup calls, every Extras configuration", "why_tests_cant": "Records are unbounded trees and handlers are built by unbounded chains of calls whose separators are decided from pre-rendered bytes; only induction covers all depths and orders.", "anchors": ["handlers/flash/handler.go: Handle, WithAttrs, WithGroup", "handlers/flash/composer.go: addAttribute, addAttributes, addGroup, addSeparator"]}
{"id": "C04", "title": "Flash output carries exactly the logged content", "statement": "Under the conditions of well-formedness, the JSON object written by flash decodes to: time (if the record time is non-zero), level, message, source (if requested and a program counter is present), in that order, followed by the handler's and the record's attributes, each placed inside the groups opened before it, empty attributes and empty groups left out, unnamed groups inlined, every value rendered as its JSON image, in call order.", "quantifier": "every record, attribute tree and derivation chain", "why_tests_cant": "A reference meaning must agree with byte-level rendering for all nested combinations; tests compare a few literal maps and ignore order and duplicates because they decode into Go maps.", "anchors": ["handlers/flash/handler.go: Handle, WithAttrs, WithGroup", "handlers/flash/composer.go: addAttribute, addAny", "handlers/flash/group.go: Handle"]}
{"id": "C05", "title": "Pre-formatting with WithAttrs is equivalent to logging the attributes", "statement": "For flash, h.WithAttrs(as) followed by logging attributes bs writes the same bytes as h logging as followed by bs, and h.WithAttrs(as).WithAttrs(bs) behaves as h.WithAttrs(as followed by bs), for every handler and every lists of attributes that render without error.", "quantifier": "every handler reachable by With calls, every attribute list, every record", "why_tests_cant": "It is an equation between two different execution paths over unbounded inputs.", "anchors": ["handlers/flash/handler.go: WithAttrs, Handle", "handlers/flash/composer.go: addAttributes"]}
{"id": "C06", "title": "WithGroup is equivalent to wrapping in a group attribute", "statement": "For flash without ReplaceAttr, h.WithGroup(g) logging attributes bs, at least one of them a non-empty leaf, writes the same bytes as h logging the single attribute Group(g, bs), for every handler h that has no name needing escapes.", "quantifier": "every handler, group name and attribute list", "why_tests_cant": "Equality of two code paths (prefix/suffix bytes versus recursive rendering) over unbounded nesting.", "anchors": ["handlers/flash/handler.go: WithGroup, Handle", "handlers/flash/composer.go: addGroup"]}
{"id": "C07", "title": "Trailing empty groups are elided", "statement": "If a record has no non-empty attributes, then logging it through a handler whose last derivation steps are any number of WithGroup calls writes the same bytes as logging it through the handler from before those WithGroup calls; if the record has some non-empty attribute all the groups are printed.", "quantifier": "every stack depth of WithGroup calls, every record", "why_tests_cant": "The elision climbs a parent chain of arbitrary length with a context marker; tests try depth one and two.", "anchors": ["handlers/flash/group.go: Handle, WithGroup", "handlers/sloggy/group.go: Handle, WithGroup"]}
{"id": "C08", "title": "Deriving a handler never changes what existing handlers print", "statement": "After any sequence of WithAttrs/WithGroup calls on any handlers of a family, every handler of the family prints for any record exactly what it printed before (handlers are immutable values).", "quantifier": "every tree of derivations in every order, every record", "why_tests_cant": "The failure depends on spare capacity of shared backing arrays and on the order in which siblings are derived; a test sees one shape.", "anchors": ["handlers/flash/handler.go: WithAttrs, WithGroup, lenPrefix", "handlers/sloggy/handler.go: WithAttrs, WithGroup"]}
{"id": "C09", "title": "Empty WithGroup and empty WithAttrs are neutral", "statement": "WithGroup(\"\") and WithAttrs of no attributes return a handler that prints every record exactly like the receiver, for every receiver of either handler package.", "quantifier": "every handler reachable by With calls, every record", "why_tests_cant": "The receiver ranges over unbounded derivation chains, and the dynamic type of the receiver (plain or group) matters.", "anchors": ["handlers/flash/handler.go: WithGroup, WithAttrs", "handlers/flash/group.go: WithGroup"]}
{"id": "C10", "title": "Concurrent flash logging keeps lines whole", "statement": "For every number of goroutines, every number of records per goroutine and every interleaving, when goroutines log through handlers derived from one flash handler, the bytes received by the writer are a concatenation of complete lines, one per successful call, and the lines of each goroutine appear in its program order.", "quantifier": "every schedule of every finite set of goroutines and calls", "why_tests_cant": "Schedules are unbounded and the race detector only sees the ones that happen.", "anchors": ["handlers/flash/handler.go: Handle (mutex), WithAttrs, WithGroup (shared mutex)"]}
{"id": "C11", "title": "Pooled buffers and composers never leak between calls", "statement": "No schedule of concurrent Handle/WithAttrs calls lets one call observe or overwrite bytes belonging to another call through the recycled buffers and composers; the output of a call does not depend on what the pools contain.", "quantifier": "every schedule of pool get/put operations and every prior pool content", "why_tests_cant": "Pool reuse is nondeterministic; a leak would show only under particular garbage-collection and scheduling histories.", "anchors": ["handlers/flash/pools.go: genPool, arrayPool", "handlers/flash/composer.go: newComposer, reuseComposer", "handlers/flash/handler.go: Handle"]}
{"id": "C12", "title": "A failing flash Handle writes nothing", "statement": "If flash's Handle returns an error caused by an attribute (a marshaler error), no byte of that record reaches the writer; if it returns nil the whole line does.", "quantifier": "every record, attribute tree and handler, every position of the failing attribute", "why_tests_cant": "The failing attribute may sit at any depth and position after any amount of rendered output.", "anchors": ["handlers/flash/handler.go: Handle", "handlers/flash/composer.go: addAttribute, addAny, addJSONMarshaler, addTextMarshaler"]}
{"id": "C13", "title": "Level threshold", "statement": "For flash and sloggy handlers and every handler derived from them, Enabled(level) is true exactly when level is at least the configured level (Info when no options or no level are given), and the configured level is read at call time.", "quantifier": "every integer level, every option value, every derivation chain", "why_tests_cant": "Levels are unbounded integers and handlers unbounded chains.", "anchors": ["handlers/flash/handler.go: Enabled, fixOptions", "handlers/sloggy/handler.go: Enabled, fixOptions"]}
{"id": "C14", "title": "Defaulting of options and extras", "statement": "Building a flash handler leaves every explicitly set option/extra field as it was, fills every unset one with the documented default (keys, time format, the four standard level names), never leaves a needed field empty, and doing it twice equals doing it once.", "quantifier": "every combination of set/unset fields and every level-name map", "why_tests_cant": "The space of level-name maps is infinite; idempotence and preservation are universally quantified.", "anchors": ["handlers/flash/extras.go: fixExtras", "handlers/flash/handler.go: fixOptions, NewHandler"]}
{"id": "C15", "title": "Every level gets a level name", "statement": "Every record logged through flash carries a non-empty level string that identifies its level.", "quantifier": "every integer slog level", "why_tests_cant": "slog levels are arbitrary integers; tests use the four standard ones.", "anchors": ["handlers/flash/handler.go: Handle", "handlers/flash/extras.go: LevelNames, fixExtras"]}
{"id": "C16", "title": "ReplaceAttr sees the right groups", "statement": "When ReplaceAttr is configured, each attribute not named like a built-in field is passed to it once with the names of the enclosing groups, outermost first; built-in fields are passed with no groups; the attribute printed is the one it returned, and attributes for which it returns the empty attribute disappear.", "quantifier": "every ReplaceAttr function, derivation chain and record", "why_tests_cant": "Quantifies over functions and unbounded nesting.", "anchors": ["handlers/flash/composer.go: addAttribute, addGroup, newComposer", "handlers/flash/handler.go: WithGroup, Handle", "handlers/sloggy/composer.go: addAttribute"]}
{"id": "C17", "title": "ReplaceAttr cannot corrupt the JSON structure", "statement": "Whatever attributes ReplaceAttr renames, replaces or removes (by returning the empty attribute), the flash output stays one well-formed JSON object.", "quantifier": "every ReplaceAttr function, record and derivation chain", "why_tests_cant": "Quantifies over arbitrary functions; the failing case needs a particular removal pattern.", "anchors": ["handlers/flash/composer.go: addAttribute, addGroup, addSeparator, emptyGroup"]}
{"id": "C18", "title": "LogValuer transparency", "statement": "Logging an attribute whose value is a LogValuer gives the same output as logging the value it resolves to, in both handlers, with and without ReplaceAttr.", "quantifier": "every resolved value of every kind, any nesting", "why_tests_cant": "Ranges over all value kinds and nestings; the tests only use a LogValuer that resolves to a string.", "anchors": ["handlers/flash/composer.go: addAttribute", "handlers/sloggy/composer.go: addAttribute"]}
{"id": "C19", "title": "Sloggy emits one well-formed JSON object line per record", "statement": "For records whose strings are printable text without control characters or characters needing Go-only escapes, and with at least one built-in field kept, every successful Handle of sloggy writes one well-formed JSON object carrying the logged content, followed by CR LF, for every derivation chain.", "quantifier": "every record, attribute tree and derivation chain", "why_tests_cant": "Unbounded trees and chains.", "anchors": ["handlers/sloggy/handler.go: Handle, WithAttrs, WithGroup", "handlers/sloggy/composer.go: addAttribute, addGroup, addString"]}
{"id": "C20", "title": "Sloggy output is JSON for every string", "statement": "Every string logged through sloggy is rendered as a legal JSON string decoding to the original.", "quantifier": "every byte string", "why_tests_cant": "Needs reasoning over all code points and malformed bytes.", "anchors": ["handlers/sloggy/composer.go: addString"]}
{"id": "C21", "title": "Sloggy and flash agree", "statement": "For every record and derivation chain within both handlers' safe domain (no ReplaceAttr, printable text, standard levels), sloggy and flash write JSON objects with the same members in the same order and with the same values.", "quantifier": "every record and derivation chain in the common domain", "why_tests_cant": "Agreement of two independent implementations over unbounded inputs.", "anchors": ["handlers/flash/handler.go: Handle", "handlers/sloggy/handler.go: Handle"]}
{"id": "C22", "title": "Sloggy lines stay whole under concurrency", "statement": "When several goroutines log through one sloggy handler the writer receives whole lines.", "quantifier": "every schedule", "why_tests_cant": "Schedules are unbounded; interleaving is timing dependent.", "anchors": ["handlers/sloggy/handler.go: Handle"]}
{"id": "C23", "title": "Context values do not influence the log line", "statement": "The line written for a record does not depend on the context passed to Handle.", "quantifier": "every context, handler and record", "why_tests_cant": "The context is an open map of arbitrary values.", "anchors": ["handlers/flash/group.go: Handle", "handlers/sloggy/group.go: Handle"]}
{"id": "C24", "title": "Replace combinators change exactly what they say", "statement": "ChangeKey, ChangeValue, ChangeCase and RemoveKey return every attribute that does not match (key and group test) unchanged, and change only the key, only the value, or remove, for a matching one; case-insensitive matching is by Unicode-fold for ASCII letters; no combinator ever changes groups.", "quantifier": "every attribute, group list, key, case flag and group test function", "why_tests_cant": "Quantifies over arbitrary attributes and functions.", "anchors": ["replace/change.go: ChangeKey, ChangeValue, ChangeCase, RemoveKey, checkFieldGroups, SetValueTo", "replace/group.go: TopCheck, Current"]}
{"id": "C25", "title": "Multiple composes replace functions", "statement": "Multiple(f1..fn) is the left-to-right composition of the functions, cut off as soon as an attribute becomes empty; nesting Multiple is associative, Multiple() is the identity, and no function is ever called with the empty attribute produced by an earlier one.", "quantifier": "every finite list of functions, every attribute and group list", "why_tests_cant": "Quantifies over functions and list lengths.", "anchors": ["replace/multiple.go: Multiple"]}
{"id": "C26", "title": "Non-standard flash plus replacement equals standard flash", "statement": "The handler built by the madkinsreplattr creator (flash with non-standard key names and level names plus a ReplaceAttr that undoes them) writes, for records with the standard levels, the same built-in fields as a plain flash handler.", "quantifier": "every record with a standard level and attributes outside the built-in names", "why_tests_cant": "Quantifies over all records.", "anchors": ["creator/madkinsreplattr/creator.go: Creator, handlerFn", "handlers/flash/handler.go: Handle"]}
{"id": "C27", "title": "Warning registry is consistent", "statement": "After any sequence of NewWarning calls every name maps to exactly one warning, the first one created under the name; creating again under the same name returns the existing one without changing it; lookups find exactly the created names.", "quantifier": "every sequence of creations", "why_tests_cant": "Histories are unbounded.", "anchors": ["infra/warning/warning.go: NewWarning, ByName"]}
{"id": "C28", "title": "WarningsForLevel lists the registered warnings of a level", "statement": "WarningsForLevel(l) returns exactly the registered warnings of level l, sorted by name.", "quantifier": "every interleaving of registrations and queries", "why_tests_cant": "The answer depends on history (a cached index); only some histories expose staleness.", "anchors": ["infra/warning/warning.go: WarningsForLevel, buildTree"]}
{"id": "C29", "title": "Warning manager bookkeeping", "statement": "After any sequence of manager operations, for each warning the reported count equals the number of times it was added, the instances are in the order of addition with their texts, and nothing else is reported.", "quantifier": "every finite sequence of AddWarning/AddUnused/WarnOnly/Predefine/SkipTest operations", "why_tests_cant": "Histories are unbounded.", "anchors": ["infra/warning/manager.go: AddWarning, AddWarningFn, AddWarningFnText, AddUnused, GetWarnings"]}
{"id": "C30", "title": "GetWarnings order, pruning and stability", "statement": "GetWarnings returns each reported warning once, ordered by level from most to least severe and then by name; 'Unused' instances are removed exactly when their text names a warning that was in fact reported; calling it twice gives the same answer.", "quantifier": "every manager history", "why_tests_cant": "The pruning mutates state while reading; stability and sortedness must hold for all contents.", "anchors": ["infra/warning/manager.go: GetWarnings"]}
{"id": "C31", "title": "Warning gating", "statement": "HasWarning(w) holds exactly if the -useWarnings flag is set and w was declared with WarnOnly; HasWarnings returns exactly those of its arguments, in order; SkipTestIf skips exactly when one of its arguments was declared.", "quantifier": "every manager history, flag value and argument list", "why_tests_cant": "Histories and argument lists are unbounded.", "anchors": ["infra/warning/manager.go: WarnOnly, HasWarning, HasWarnings, SkipTestIf"]}
{"id": "C32", "title": "Warning level names round-trip", "statement": "Parsing the printed name of a warning level gives the level back, parsing is insensitive to letter case, and every string that parses is one of the documented spellings.", "quantifier": "every level and every string in every letter case", "why_tests_cant": "Quantifies over all strings.", "anchors": ["infra/warning/level.go: String, ParseLevel, LevelOrder"]}
{"id": "C33", "title": "Description dedent", "statement": "Warning descriptions are stored with their common indentation removed: relative indentation and text are kept, non-blank lines keep their order, and dedenting twice equals dedenting once.", "quantifier": "every multi-line description string", "why_tests_cant": "Unbounded strings.", "anchors": ["infra/warning/warning.go: fixDescription"]}
{"id": "C34", "title": "FieldCounter counts top-level fields", "statement": "On every well-formed JSON object, FieldCounter.Parse succeeds and reports for every top-level key how many times it occurs; Duplicates lists exactly the keys occurring more than once, NumFields gives the number of different keys and Fields lists them sorted.", "quantifier": "every well-formed JSON object of any depth, with arbitrary white space and strings", "why_tests_cant": "Unbounded nested inputs.", "anchors": ["internal/json/field.go: FieldCounter, Parse, parseObject, parseField, parseValue, parseString, parseArray, parseNumber, parseKeyword, Duplicates, NumFields, Fields"]}
{"id": "C35", "title": "FieldCounter rejects what is not JSON", "statement": "FieldCounter.Parse returns an error on every input that is not a JSON object.", "quantifier": "every byte sequence", "why_tests_cant": "Quantifies over all inputs.", "anchors": ["internal/json/field.go: Parse, readLoop"]}
{"id": "C36", "title": "FieldCounter is total", "statement": "FieldCounter.Parse terminates on every input without panicking and consumes each input rune at most once net of unreads.", "quantifier": "every byte sequence", "why_tests_cant": "Termination and absence of panics over all inputs.", "anchors": ["internal/json/field.go: Parse, readRune, unreadRune, readLoop"]}
{"id": "C37", "title": "Benchmark data is indexed consistently", "statement": "After parsing any benchmark output, the view by test and the view by handler contain the same pairs and the same measurements, later lines for the same pair replace earlier ones, and the listed tags are exactly the ones seen, sorted.", "quantifier": "every sequence of benchmark output lines", "why_tests_cant": "Unbounded inputs; agreement of two indexes.", "anchors": ["internal/data/bench_parser.go: ParseBenchmarkData", "internal/data/bench.go: Benchmarks"]}
{"id": "C38", "title": "Verification report round-trips", "statement": "Warning reports printed by the warning manager and then read by the server's warning parser yield the same warnings per handler: level, name, instance functions, texts and log lines.", "quantifier": "every manager content with printable single-line texts, any number of handlers", "why_tests_cant": "Agreement of a printer and a parser over unbounded reports.", "anchors": ["infra/warning/manager.go: ShowWarnings", "internal/data/warnings_parser.go: ParseWarningData"]}
{"id": "C39", "title": "Warning data parser never crashes", "statement": "ParseWarningData returns a result or an error for every input text and never panics.", "quantifier": "every text", "why_tests_cant": "Quantifies over all inputs.", "anchors": ["internal/data/warnings_parser.go: ParseWarningData"]}
{"id": "C40", "title": "Ranged scores lie between 0 and 100 and reverse the order", "statement": "For any non-empty set of measurements with at least two different values, the ranged value of each measurement lies in [0,100], the smallest measurement gets 100, the largest 0, and a smaller measurement never gets a smaller score.", "quantifier": "every finite collection of measurements added in any order", "why_tests_cant": "Quantifies over all collections and orders.", "anchors": ["internal/scoring/axis/common/range.go: RangeFloat64, RangeUint64"]}
{"id": "C41", "title": "Averages stay within bounds and ignore order", "statement": "Averaging any non-empty sequence of scores (with repetitions) gives a value between the smallest and largest, independent of the order of addition, and adding with multiplicity n equals adding n times.", "quantifier": "every finite sequence of additions", "why_tests_cant": "Unbounded sequences and permutations.", "anchors": ["internal/scoring/score/average.go: Average, Add, AddMultiple"]}
{"id": "C42", "title": "Benchmark scores are well defined", "statement": "For any benchmark data each handler's benchmark scores are percentages in [0,100], defined exactly when at least one of the handler's tests distinguishes handlers, and a handler that is best in every measure gets 100.", "quantifier": "every benchmark data set", "why_tests_cant": "Quantifies over all data sets.", "anchors": ["internal/scoring/axis/benchmarks.go: Setup", "internal/scoring/axis/bench/original.go: MakeRanges, Score"]}
{"id": "C43", "title": "Warning scores are well defined", "statement": "A handler's warning scores are percentages in [0,100], a handler without warnings gets 100, and removing a warning never lowers a handler's score.", "quantifier": "every set of warnings per handler", "why_tests_cant": "Quantifies over all data sets.", "anchors": ["internal/scoring/axis/warnings.go: Setup", "internal/scoring/axis/warn/original.go"]}
{"id": "C44", "title": "Score filters keep exactly the configured handlers", "statement": "An include filter keeps exactly the listed handlers, an exclude filter exactly the others, and including and excluding the same list partitions the handlers; groups of filters keep the union.", "quantifier": "every handler list and filter group", "why_tests_cant": "Quantifies over all lists.", "anchors": ["internal/scoring/score/filter.go", "internal/scoring/keeper/size.go"]}
{"id": "C45", "title": "Score keepers are listed once and in order", "statement": "After any sequence of registrations each keeper tag is registered once (a second registration is refused and changes nothing), and the listing is sorted with '+'-tags last and reflects every registration made before it.", "quantifier": "every sequence of registrations and listings", "why_tests_cant": "Histories are unbounded and a cache is involved.", "anchors": ["internal/scoring/score/keeper.go: AddKeeper, Keepers"]}
{"id": "C46", "title": "Chart geometry", "statement": "The chart size chosen for any score range is one of the defined sizes, wider data never selects a smaller chart than narrower data contained in it, and reversing a chart series twice gives the original.", "quantifier": "every score range and series", "why_tests_cant": "Quantifies over all ranges and lengths.", "anchors": ["cmd/server/chart/score.go: scoreChartSize, SmallestChartSize, scoreChartTicks", "cmd/server/chart/bar.go: reverse"]}
{"id": "C47", "title": "Gin traffic lines parse exactly", "statement": "The gin traffic parser accepts exactly lines of four '|'-separated parts whose first is an integer status, and returns code, elapsed time, client, method and URL with surrounding blanks and quotes removed; lines printed by gin's default format parse back to their fields.", "quantifier": "every line", "why_tests_cant": "Quantifies over all strings.", "anchors": ["gin/parser.go: Parse"]}
{"id": "C48", "title": "Gin writer logs every line once at the right level", "statement": "Each Write on the gin writer produces exactly one log record and reports all bytes consumed, at the level given by the line's prefix or the default, unless it returns an error.", "quantifier": "every byte sequence written and every option setting", "why_tests_cant": "Quantifies over all texts and options.", "anchors": ["gin/writer.go: Write, NewWriter"]}
{"id": "C49", "title": "Foreign level conversion is order preserving", "statement": "The level conversions used by the zap and logrus creators never map a more severe slog level to a less severe foreign level and fix the four standard levels.", "quantifier": "every integer level", "why_tests_cant": "Levels are unbounded integers.", "anchors": ["creator/utilzap", "creator/utillogrus"]}
{"id": "C50", "title": "Line counting", "statement": "The test counting writer reports as many lines written as Write calls whose data ends in a newline, and as many bytes as were written, for every sequence of writes.", "quantifier": "every sequence of writes", "why_tests_cant": "Unbounded histories.", "anchors": ["internal/test/writer.go: CountWriter"]}
{"id": "C51", "title": "Write failures surface as errors", "statement": "If the underlying writer fails, flash's and sloggy's Handle return an error, and flash stops nothing else: later records are still written whole.", "quantifier": "every pattern of writer failures over any sequence of records", "why_tests_cant": "Failure patterns are unbounded histories.", "anchors": ["handlers/flash/handler.go: Handle", "handlers/sloggy/handler.go: Handle"]}
{"id": "C52", "title": "Creators hand out working handlers", "statement": "A creator built with a handler function can make handlers and loggers, one built only with a logger function makes loggers but no handlers, and construction without a name or without functions is refused.", "quantifier": "every combination of name and functions", "why_tests_cant": "Quantifies over all combinations.", "anchors": ["infra/creator.go: NewCreator, NewLogger, NewHandler, CanMakeHandler"]}
{"id": "C53", "title": "Trace handler indents by derivation depth", "statement": "The trace handler accepts every level and prints one line per call indented by two blanks for every With step that led to the handler, for every derivation chain.", "quantifier": "every derivation chain and call sequence", "why_tests_cant": "Unbounded chains.", "anchors": ["handlers/trace/handler.go"]}
{"id": "C54", "title": "Enumerations round-trip", "statement": "For each generated enumeration (benchmark items, score types) parsing the printed name returns the value, printing is injective, and unknown names are rejected.", "quantifier": "every value and every string", "why_tests_cant": "Quantifies over all strings.", "anchors": ["internal/data/benchitems_enumer.go", "internal/scoring/score/type_enumer.go"]}
{"id": "C55", "title": "Flash logging cannot deadlock", "statement": "From every state reachable by any schedule of any finite set of goroutines logging through flash handlers (with any earlier write failures), there is a continuation in which every call finishes.", "quantifier": "every schedule, every finite set of goroutines and calls, every pool content", "why_tests_cant": "Absence of deadlock is a statement about all reachable states of an unbounded system.", "anchors": ["handlers/flash/handler.go: Handle", "handlers/flash/composer.go: newComposer, reuseComposer"]}
{"id": "C56", "title": "Sloggy logging cannot deadlock", "statement": "From every state reachable by any schedule of any finite set of goroutines logging through sloggy handlers sharing a mutex, there is a continuation in which every call finishes.", "quantifier": "every schedule, every finite set of goroutines and calls", "why_tests_cant": "Absence of deadlock is a statement about all reachable states of an unbounded system.", "anchors": ["handlers/sloggy/handler.go: Handle"]}
{"id": "C57", "title": "Listing handlers by warning never crashes", "statement": "After the warnings of any set of managers are shown, printing the list of handlers by warning does not panic, whatever warnings were added to the managers.", "quantifier": "every history of every set of managers, every map order", "why_tests_cant": "Unbounded histories; the tests of the repository only add warnings that are predefined.", "anchors": ["infra/warning/manager.go: ShowHandlersByWarning, ShowWarnings, WithWarnings"]}
{"id": "C58", "title": "A second report only adds", "statement": "Reading the warning report of a second run (the server reads the benchmark run, then the verification run) keeps every warning instance known from the first.", "quantifier": "every two sequences of reports", "why_tests_cant": "Pairs of unbounded reports; needs a handler that is clean in one run only.", "anchors": ["internal/data/warnings_parser.go: ParseWarningData", "internal/data/setup.go"]}
{"id": "C59", "title": "Benchmark result lines are read", "statement": "Every result line that `go test -bench` prints for a benchmark of this repository (BenchmarkHandler/BenchmarkTest with the processor suffix that package testing appends, runs, ns/op, and optionally MB/s, B/op and allocs/op) is read by ParseBenchmarkData: what is stored for handler and test are exactly the printed numbers, with zero for a measurement that is not printed.", "quantifier": "for all handler names without '/', test names without '-', counts below 2^64, decimal times and rates, white space between the fields, numbers of processors (including 1), and states of the Benchmarks object", "why_tests_cant": "The lines are free text with unbounded numbers and white space, and four unanchored patterns search them independently; only a proof shows that no pattern can match at a wrong place, and that the missing processor suffix is the only way to lose a line.", "anchors": ["internal/data/bench_parser.go:13-18", "internal/data/bench_parser.go:62-126"]}
{"id": "C60", "title": "Setup brings the warnings of both runs together", "statement": "After Setup has read the output of a benchmark run (in which the marked lines of the warning reports stand among result lines, lines naming handlers and other output) and the output of a verification run, there is no error, and for every handler tag, level and warning name the server knows exactly the instances reported by the handler's benchmark run, marked Bench, followed by those of its verification run, marked Verify.", "quantifier": "for all benchmark outputs, all histories of the warning managers of any number of handlers, all orders of the maps", "why_tests_cant": "Needs the composition of report writer, line filter, name lookup and report parser over unbounded outputs; a test run covers one output, and handlers clean in one run only are rare.", "anchors": ["internal/data/setup.go:13-28", "internal/data/bench_parser.go:42-60", "internal/data/bench.go:102-110", "internal/data/warnings_parser.go:40-236"]}
{"id": "C61", "title": "The chart cache never serves one chart for another", "statement": "However many requests for charts are served at the same time, and however their accesses to the shared cache are interleaved, every reply with a chart is a drawing of exactly the chart its URL asks for (tag and item for bars, keeper and size for scores), a chart in the cache is never drawn again by later requests, and every request is answered.", "quantifier": "for all tags and names of keepers, all finite sets of requests and all interleavings of their steps", "why_tests_cant": "Keys are made by joining free texts with colons, so a clash needs particular names; interleavings are unbounded.", "anchors": ["cmd/server/chart/bar.go:15-74", "cmd/server/chart/score.go:122-150", "cmd/server/chart/cache.go:5-8"]}
{"id": "C62", "title": "Bar charts show what was measured", "statement": "After any benchmark output has been read and any charts have been asked for, the bar chart of a test shows one bar for each handler with a result for the test, labelled with the name of the handler and as long as the item of the last result read; the chart of a handler likewise with one bar for each test; bars are in order of names; there is no chart for other tags.", "quantifier": "for all benchmark outputs, tags, items, histories of requests and orders of maps", "why_tests_cant": "Labels and values are two parallel slices filled from an unordered map and a lazily sorted list; agreement must hold for all outputs.", "anchors": ["cmd/server/chart/bar.go:29-42", "cmd/server/chart/bar.go:77-118", "internal/data/bench.go:36-57", "internal/data/bench.go:123-166"]}
{"id": "C63", "title": "Handlers are known by the names their benchmarks print", "statement": "If a benchmark function BenchmarkX prints the line that names its handler N, and no later line names X, then after the output has been read the server shows X as N, and finds X by the name N if no other handler has that name.", "quantifier": "for all tags, names, call stacks and benchmark outputs", "why_tests_cant": "The line is printed with free texts and read with a greedy pattern; which names survive is a question about all texts.", "anchors": ["bench/tests/suite.go:85-91", "internal/misc/function.go:12-27", "internal/data/bench_parser.go:13", "internal/data/bench_parser.go:42-126", "internal/data/bench.go:102-120"]}
{"id": "C64", "title": "The views of the warnings by test and by warning are those of the reports", "statement": "After the warning reports of any number of handlers have been read, the view by test has under every test, level and warning exactly the instances the reports give for that test, in order, under the names of the handlers; the view by warning lists exactly the handlers and tests with instances of the warning and counts every instance once for its handler; and whatever the view by warning lists for a handler, the view by handler has as well.", "quantifier": "for all histories of the warning managers of any number of handlers, read from any sources, and all orders of the maps; consistency of the views for any texts whatever", "why_tests_cant": "Three views are updated by separate code at different times while the text is read; that they stay consistent is an invariant over all texts and all sequences of texts.", "anchors": ["internal/data/warnings_parser.go:54-80", "internal/data/warnings_parser.go:145-228", "internal/data/warnings.go:177-217", "internal/data/warnings.go:235-277", "internal/data/setup.go:13-28"]}
{"id": "C65", "title": "What creators say of their handlers reaches the server", "statement": "After a benchmark run and a verification run have been read, the server knows for every handler tag the summary (line by line, without white space around the lines) and exactly the links of the creator whose name belongs to the tag, says there are none for tags no creator spoke of, and shows as name of the handler the name its creator has, or the tag if no name is known.", "quantifier": "for all creators with any summaries and any maps of links, in any order of the map, with any other output between them, and all reports following", "why_tests_cant": "Summaries and links are arbitrary texts printed by one program and recognised by regular expressions in another; no test in the repository reads them back, and the order of the links is that of a map.", "anchors": ["verify/tests/suite.go:40-51", "infra/creator.go:85-104", "internal/data/warnings_parser.go:94-143", "internal/data/warnings.go:59-102"]}
{"id": "C66", "title": "Duplicated fields in the output of a benchmark are reported", "statement": "The check noDuplicates of the benchmark suite adds a warning and gives an error exactly when the line it is given is a JSON object with a field that occurs more than once.", "quantifier": "for all lines and all states of the warning manager", "why_tests_cant": "Whether the check can ever fire is a statement about all lines; a passing benchmark run looks the same if it never does.", "anchors": ["bench/tests/checks.go:166-177", "internal/json/field.go:56-110"]}
{"id": "C67", "title": "Every line of the output of a benchmark is verified", "statement": "verifyLines hands exactly the lines of the output to the checks, in order, up to the first line on which a check gives an error; it gives an error exactly if there is such a line.", "quantifier": "for all outputs, of any length and with or without a final newline, and all lists of checks", "why_tests_cant": "Lines are read in chunks of a fixed size; what happens at the boundaries depends on the length of the lines, and the outputs verified in a run are a handful of short lines.", "anchors": ["bench/tests/checks.go:236-266"]}
{"id": "C68", "title": "The benchmark checks report exactly the fields that are missing or wrong", "statement": "The check finder gives no report exactly if every expected field is there with the expected value, groups being searched in depth; otherwise the report names every field at fault, and no other, by its path. The check fields names exactly the fields that are missing.", "quantifier": "for all expected maps nested to any depth, all lines, all states of the warning manager and all orders of the maps", "why_tests_cant": "A run exercises a dozen fixed maps against output that is right; the claim is about all maps and all wrong outputs.", "anchors": ["bench/tests/checks.go:46-63", "bench/tests/checks.go:72-146"]}
{"id": "C69", "title": "Every big group passes its own check, and nothing else does", "statement": "Whatever random numbers are drawn, the group bigGroupBuilder makes passes bigGroupCheck when it is logged faithfully, and reaches exactly the limit; a line in which the group is missing, is not a group, or is not nested to the limit is reported.", "quantifier": "for all random numbers, limits, names and orders of the maps, and all lines", "why_tests_cant": "The group is random: a run sees one of about 5^781 shapes; and the failing cases never occur in a run.", "anchors": ["bench/tests/data.go:133-195", "bench/tests/checks.go:20-44"]}
{"id": "C70", "title": "The benchmark suite finds nothing wrong with flash", "statement": "For every benchmark of the suite, verifying what flash writes adds no warning and gives no error, whatever the time, the source position, and the random numbers of the big group.", "quantifier": "for all clocks, program counters, source positions, random numbers, formats of numbers as the standard library guarantees them, and orders of the maps", "why_tests_cant": "Every run has one time, one source position and one big group.", "anchors": ["bench/tests/benchmarks.go:62-272", "bench/tests/suite.go:60-138", "bench/tests/checks.go:20-266", "creator/madkinsflash/creator.go:13-30"]}
{"id": "C71", "title": "The traffic log is loaded line by line", "statement": "The data of the Logging benchmark is, in the order of the lines of the embedded log, what the parser of gin traffic lines makes of each line without its time and level; time and level are removed exactly from the lines that begin with them, and a line that cannot be parsed is skipped without affecting the others.", "quantifier": "for all texts whose last line is terminated by a newline, with lines of any length and either line ending", "why_tests_cant": "The embedded file is one text with short, well-formed lines.", "anchors": ["bench/tests/logging.go:19-61", "gin/parser.go:20-59"]}
{"id": "C72", "title": "What the other checks of the benchmark suite accept", "statement": "The matcher accepts a line exactly if its fields, without the time, with the level in upper case and with \"message\" counted as \"msg\", are the expected ones and no others. The check of the source accepts a line exactly if it has a source object with file, function and line; otherwise it reports SourceKey, or SourceCaller exactly if there is no source but a field caller. Several checks together give an error exactly if one of them does. A line that cannot be decoded is reported as TestError with the text of the error. The Disabled benchmark fails exactly if something is written.", "quantifier": "for all lines, all expected maps, all lists of checks and all states of the warning manager", "why_tests_cant": "The suite is run over handlers whose lines mostly pass; a check that accepts too much is not noticed.", "anchors": ["bench/tests/checks.go:150-233", "bench/tests/utility.go:57-69", "bench/tests/benchmarks.go:263-272"]}
{"id": "C73", "title": "Generated test cases expect what flash logs", "statement": "Each test program of the complex cases (instructions With, WithGroup, With after WithGroup, and one Info, over the attribute lists A to D) runs without error, logs exactly one record through exactly the derivations its text names, and the map it expects is the decoded form of the members log/slog prescribes for that record (empty groups left out), so that the comparison with the line written by the flash handler finds no mismatch.", "quantifier": "for all programs of the language (any length, any nesting, any group character), not only the 35 of the suite; for all times, callers and faithful JSON decoders", "why_tests_cant": "The suite runs 35 programs, with group characters 1 to 3; expectation and log statement are generated by the same code, so an error common to both is not seen.", "anchors": ["verify/tests/complex.go:18-116", "verify/tests/complex.go:149-297", "verify/tests/complex.go:304-405", "handlers/flash/handler.go"]}
{"id": "C74", "title": "The suite finds nothing wrong with flash but duplicate fields", "statement": "The tests of the verification suite (besides TestSlogTest, which is the standard library's) pass with a handler that follows the documentation, flash in particular, with one exception: the two tests about duplicate fields see alpha twice and charlie three times. If that warning is expected no assertion fails and exactly these two notes are recorded; if not, exactly two assertions fail and nothing is recorded.", "quantifier": "for all times and callers of the log calls within a day, all numbers types and decoders that decode JSON faithfully, all orders in which maps are walked through, all previous states of the warning manager in which at most Duplicates is expected, with and without -useWarnings", "why_tests_cant": "Running the suite shows the outcome for one clock, one set of program counters and one order of map iteration; it cannot show that the suite never fails by chance for a correct handler.", "anchors": ["verify/tests/suite.go", "verify/tests/slogtest.go", "verify/tests/documented.go", "verify/tests/duplicate.go", "verify/tests/other.go", "verify/tests/replace.go", "verify/tests/complex.go:18-147", "verify/tests/utility.go", "verify/tests/checks.go", "infra/warning/manager.go", "verify/slog_madkins_flash_test.go:13-18", "creator/madkinsflash/creator.go:28-30"]}
{"id": "C75", "title": "The suite records expected warnings only", "statement": "Whatever a run of the verification suite writes down about a handler comes from one of its tests and is a warning the suite was told to expect, or a note that such a warning was not seen; nothing written down before is lost or changed, and what is to be expected stays the same.", "quantifier": "for all handlers (any function from options, derivations, record and time to output, including ones that write nonsense or nothing), all sets of expected warnings, with and without -useWarnings", "why_tests_cant": "The suite is the test; it is run with a dozen handlers, each with its own fixed list of expected warnings.", "anchors": ["verify/tests/suite.go", "verify/tests/slogtest.go", "verify/tests/documented.go", "verify/tests/duplicate.go", "verify/tests/other.go", "verify/tests/replace.go", "verify/tests/complex.go:18-147", "verify/tests/utility.go", "verify/tests/checks.go", "infra/warning/manager.go"]}
{"id": "C76", "title": "Nothing expected, nothing recorded", "statement": "When no warning is expected, or the flag -useWarnings is not given, a run of the verification suite leaves the warnings as they were.", "quantifier": "for all handlers and all states of the warning manager", "why_tests_cant": "Needs a handler that fails each test in each of its ways.", "anchors": ["verify/tests/suite.go", "verify/tests/slogtest.go", "verify/tests/documented.go", "verify/tests/duplicate.go", "verify/tests/other.go", "verify/tests/replace.go", "verify/tests/complex.go:18-147", "verify/tests/utility.go", "verify/tests/checks.go", "infra/warning/manager.go"]}
{"id": "C77", "title": "Every expected warning is mentioned", "statement": "A warning the verification suite was told to expect is mentioned at its end, as recorded or as not seen, unless an assertion fails.", "quantifier": "for all handlers, for each of the warnings the suite knows, for all sets of expected warnings", "why_tests_cant": "Needs all combinations of expected warnings (2^33) and all ways a handler may behave.", "anchors": ["verify/tests/suite.go", "verify/tests/slogtest.go", "verify/tests/documented.go", "verify/tests/duplicate.go", "verify/tests/other.go", "verify/tests/replace.go", "verify/tests/complex.go:18-147", "verify/tests/utility.go", "verify/tests/checks.go", "infra/warning/manager.go"]}
{"id": "C78", "title": "ReplaceAttr cannot corrupt the JSON structure of sloggy", "statement": "Whatever attributes ReplaceAttr renames, replaces, removes, or turns into groups, the line sloggy writes stays one well-formed JSON object with exactly the members that are left.", "quantifier": "every ReplaceAttr function whose results can be printed and that does not nest groups for ever, every record, derivation chain and writer", "why_tests_cant": "Quantifies over arbitrary functions; the failing case needs all built-in fields removed and a handler with attributes or groups.", "anchors": ["handlers/sloggy/composer.go: addAttribute, addGroup", "handlers/sloggy/handler.go: Handle, WithAttrs, WithGroup"]}
{"id": "C79", "title": "Asking for the names of tags is safe while pages are served", "statement": "However many pages are served at the same time, and however they are interleaved, asking for the names of tests and handlers gives each page the names of exactly the tags it asked for, and never brings the server down.", "quantifier": "for all sets of requests, all lists of tags they ask for, all contents of the cache of names and all interleavings", "why_tests_cant": "The Go runtime ends the program when a map is read while it is written; that needs two requests within a few instructions of each other.", "anchors": ["internal/data/tags.go:20-42", "internal/data/tags.go:50-68", "cmd/server/pages/warnings.gohtml:68-73", "cmd/server/pages/scores.gohtml:99"]}
{"id": "C80", "title": "Lists made when first asked for are complete while pages are served", "statement": "However many pages are served at the same time, and however they are interleaved, each page shows complete lists in order of what the server knows, without repetition: keepers, handlers, tests, and the handlers, tests and levels of warnings, all of which are made when they are first asked for.", "quantifier": "for all sets of requests, all contents of the maps the lists are made from, all orders in which maps are visited and all interleavings", "why_tests_cant": "A list is incomplete only while another request is making it; interleavings are unbounded.", "anchors": ["internal/scoring/score/keeper.go:162-180", "internal/data/bench.go:128-138", "internal/data/bench.go:156-166", "internal/data/warnings.go:104-114", "internal/data/warnings.go:149-159", "internal/data/warnings.go:247-273", "internal/data/warnings.go:342-353"]}
{"id": "C81", "title": "Links on pages lead to what they name", "statement": "For every tag of a handler, test, keeper or text that is put into a link of a page, following that link, through escaping by the template, the browser, decoding by the server and choice of the route, leads to the page or chart of exactly that tag; no path has two routes.", "quantifier": "for all tags (all byte strings), all benchmark texts the tags are read from, all pages the link is on and all paths", "why_tests_cant": "Tags come from input files and pass through four encoders and decoders; only tags of the shipped data are ever tried.", "anchors": ["cmd/server/server.go:135-149", "cmd/server/server.go:388-410", "cmd/server/pages/home.gohtml:27-72", "cmd/server/pages/test.gohtml:62-67", "cmd/server/pages/handler.gohtml:84-89"]}
{"id": "C82", "title": "Texts listed are the ones shown, and a failing template is reported", "statement": "The home page lists, in order, the configured texts whose files can be read and are not empty, and the page of each shows its own file; other names give a page saying so. If the template of a page fails the error page is sent instead, which shows the error; nothing is sent only if that fails too.", "quantifier": "for all contents of files, all lists of items, all names, pages, parameters, errors so far and all templates", "why_tests_cant": "Contents of files and failures of templates are unbounded; there are no tests of the server.", "anchors": ["cmd/server/text.go:11-72", "cmd/server/server.go:171-187", "cmd/server/server.go:376-435"]}
{"id": "C83", "title": "Tables of tabular show every result once", "statement": "The command tabular prints one table for each test with results, in the order of their names, and in it one row for each handler whose last result for that test has runs, in the order of names, showing that result and no other.", "quantifier": "for all benchmark texts read, all orders of maps and all sorting functions", "why_tests_cant": "Texts of benchmarks are unbounded and order of maps is random; the command has no tests.", "anchors": ["cmd/tabular/tabular.go:88-111", "internal/data/bench.go:31-33", "internal/data/bench.go:150-214"]}
{"id": "C84", "title": "Listing of tabular shows every warning once", "statement": "The command tabular lists every handler with warnings once, in the order of names; under each every warning found for it, once, from required to administrative and there by name, with a heading for exactly the levels that have any; with each warning all its instances, as many as its line says; and with each instance its source, place, the text added, line by line, and the log line.", "quantifier": "for all warning texts read, all orders of maps and all sorting functions, all instances", "why_tests_cant": "Texts of warnings are unbounded and order of maps is random; the command has no tests.", "anchors": ["cmd/tabular/tabular.go:113-142", "internal/data/warnings.go:104-114", "internal/data/warnings.go:298-308", "internal/data/warnings.go:342-353", "internal/data/warnings.go:404-412"]}
{"id": "C85", "title": "Every benchmark is measured once or its omission is reported", "statement": "A run of the benchmark suite that comes to its end prints, in the order of names, exactly one outcome for every benchmark that is possible with the creator: the executions of its last round and the bytes of one execution if every round has written one line for each execution (where lines are counted), otherwise a failure with both numbers of the first round that has not. For exactly the benchmarks that need a handler the creator cannot make, there is a warning NoHandlerCreation. With -justTests nothing is measured and everything is verified. With flash all twelve are measured, none fails and there is no warning.", "quantifier": "for all creators, outputs, rounds, interleavings of goroutines, sorting functions and states of the warning manager", "why_tests_cant": "The rounds and the interleaving of goroutines are chosen by package testing and the scheduler; tests see some of them, and none of the failures.", "anchors": ["bench/tests/suite.go:82-183", "bench/tests/benchmarks.go:35-257", "internal/test/writer.go:13-28", "infra/warning/admin.go:11-14"]}
{"id": "C86", "title": "Warnings of a benchmark are filed under that benchmark", "statement": "Every warning that the verification of a benchmark adds is filed by the server, after it was printed in the warning report and read again, under the tag of that benchmark.", "quantifier": "for all outputs of handlers, states of the manager, handlers and benchmarks of the suite", "why_tests_cant": "The name travels through the checks, the manager, the printed report and the parser; a test of one part does not see the others, and there are as many warnings as outputs.", "anchors": ["bench/tests/benchmarks.go:62-257", "bench/tests/checks.go:20-262", "infra/warning/manager.go:100-170", "internal/data/warnings_parser.go:59-240"]}
{"id": "C87", "title": "The score chart shows every handler in its place", "statement": "In the chart of scores of a keeper, for every size, each handler whose scores are within the size has one point at its scores, one label with its name and one line that joins the two, and nothing else is drawn but one mark for each smaller size. The labels stand in one column in the order of the points, at distances greater than their height, and within the chart.", "quantifier": "for all keepers, scores, warnings, sizes, sorting functions and orders in which the map of handlers is gone through", "why_tests_cant": "The order of a map and the result of sort.Slice for a comparison that is no strict order are not determined; there are as many charts as sets of scores.", "anchors": ["cmd/server/chart/score.go:189-220", "cmd/server/chart/score.go:236-390"]}
{"id": "C88", "title": "What benchmark scores depend on", "statement": "The scores of a handler on a benchmark axis depend only on the time, bytes and allocations in the last results of all handlers for the tests that the axis includes. Results of other tests, results that were replaced, numbers of runs, rates, the order of lines and the order in which maps are gone through do not change any score.", "quantifier": "for all pairs of texts read, options of the axis, orders of maps and handlers", "why_tests_cant": "It is a statement about pairs of executions, for all orders of maps, which a test cannot choose.", "anchors": ["internal/scoring/axis/benchmarks.go:57-141", "internal/scoring/axis/bench/original.go:59-164", "internal/scoring/keeper/size.go:30-56", "internal/data/bench.go"]}
{"id": "C89", "title": "The tables of scores show what was measured", "statement": "On the page of scores, the tables of a benchmark axis have one row for each handler of the keeper and one column for each test that counts for the axis. Where a handler has a result for a test, the cells show its score, a percentage, and the numbers of its last result; where it has none, no number is shown. What was asked for before does not change what is shown, and making the page does not fail.", "quantifier": "for all benchmark results, options of the axis, sequences of earlier questions and orders in which maps are gone through", "why_tests_cant": "Each question writes to maps that are gone through in an order that is not determined; a test sees one order and one history.", "anchors": ["internal/scoring/axis/benchmarks.go:150-171", "internal/scoring/axis/common/data.go:20-25", "cmd/server/pages/scores.gohtml:83-287"]}
{"id": "C90", "title": "Asking for the scores of tests is safe while pages are served", "statement": "However requests for pages of scores are interleaved, the runtime does not end the program because of a map that is read or written while it is written.", "quantifier": "for all axes, sets of requests and interleavings", "why_tests_cant": "A test runs some interleavings only, and a clash of map accesses is rarely observed.", "anchors": ["internal/scoring/axis/benchmarks.go:150-167", "internal/scoring/axis/common/data.go:20-25"]}
{"id": "C91", "title": "Scores are weighted means of positions between the best and the worst result", "statement": "The score of a handler in a test is the mean, with the weights of the measures, of its positions between the worst (0) and the best (100) of the last results of all handlers for the test, over the measures by which they differ. The score by tests is the mean of these over the tests asked for that the handler ran. The score by measures is the mean, with the weights, of the mean positions over the tests that differ by the measure. The default is the mean of both. Floating point numbers may make a difference of a billionth at most, for up to 900000 results.", "quantifier": "for all benchmark results, options of the axis, weights and orders in which maps are gone through", "why_tests_cant": "The formula is spread over four loops over maps of unknown order and over two kinds of ranges; a test compares a few sets of results, and rounding hides small differences.", "anchors": ["internal/scoring/axis/benchmarks.go:60-148", "internal/scoring/axis/common/range.go:24-94", "internal/scoring/score/average.go:7-32"]}
{"id": "C92", "title": "The extra text of a warning is shown as text", "statement": "On the pages of handlers and tests the extra text of an instance of a warning is shown line by line in paragraphs, character for character; a line that says where a test of testing/slogtest was called becomes the test, a line break and the message as a link to that line of the source. No text becomes markup of its own.", "quantifier": "for all extra texts, of any length and number of lines, and what a browser reads from the page", "why_tests_cant": "The text comes from handlers under test and from errors; tests use a few harmless texts, and the result is given to the template as trusted markup so that nothing else escapes it.", "anchors": ["internal/data/warnings.go:425-449", "cmd/server/parts/warnings.gohtml:45"]}
{"id": "C93", "title": "Buttons in lists of warnings display what they stand beside", "statement": "After any sequence of clicks on the buttons of a page of a handler or a test, a description or log is displayed exactly if its own button was clicked an odd number of times.", "quantifier": "for all lists of warnings on a page and all sequences of clicks", "why_tests_cant": "Which row a button finds depends on all rows before it on the page; there are no tests of the pages, and it needs data in which names repeat.", "anchors": ["cmd/server/parts/warnings.gohtml:1-61", "cmd/server/stuff/scripts.js:22-28", "internal/data/warnings.go:455-464"]}
{"id": "C94", "title": "The page of warnings is complete and changes nothing", "statement": "The page of warnings lists every registered warning, level by level, with the handlers and tests that caused it, by name; its table has a column for every handler and a row for every registered warning, and each cell has the number of times the handler caused the warning and is blank if it never did. The page is never cut short, and showing it changes neither what it shows later nor any other data.", "quantifier": "for all texts read, all sets of registered warnings, all orders of maps", "why_tests_cant": "There are no tests of the pages. That nil is never dereferenced in the table depends on the first part of the page having created the data for all registered warnings, and counts depend on all texts read before.", "anchors": ["cmd/server/pages/warnings.gohtml:26-115", "internal/data/warnings.go:104-120", "internal/data/warnings.go:206-217", "internal/data/warnings.go:235-277"]}
{"id": "C95", "title": "Requests for the page of warnings at the same time", "statement": "Any number of requests for the page of warnings can be served at the same time, and each is given the data of every warning it asks for.", "quantifier": "for all numbers of requests, all interleavings, all data read and all sets of registered warnings", "why_tests_cant": "The page stores data for warnings never reported in a map without a lock; whether two requests meet in the write depends on timing.", "anchors": ["internal/data/warnings.go:206-217", "cmd/server/pages/warnings.gohtml:35", "cmd/server/server.go:376-405"]}
{"id": "C96", "title": "The two calculations of scores of warnings agree", "statement": "For every handler the original score of warnings and the score by data differ by less than five percent of their mean, so that the comparison of both that is made whenever scores are computed logs nothing; the original score is the share of all warnings given, by weight, that the handler does not have.", "quantifier": "for all texts of warnings read, all weights, all sets of registered warnings, all orders of maps, in binary64 arithmetic", "why_tests_cant": "No test computes scores. Whether the two calculations differ depends on how the warnings of all handlers are spread over the levels.", "anchors": ["internal/scoring/axis/warn/original.go:45-95", "internal/scoring/axis/common/stuff.go:10-29", "internal/scoring/axis/warnings.go:45-99"]}
{"id": "C97", "title": "The two calculations of scores of benchmarks agree", "statement": "The ranges, the scores in tests, the totals, and the counts of the original calculation of benchmark scores agree with those of the newer one, so that the comparisons made whenever scores are computed log nothing; and the original score is the mean of the scores in tests, up to rounding.", "quantifier": "for all benchmark output read, all weights, all tests included and excluded, all orders of maps, all ways to write numbers, in binary64 arithmetic, up to 900000 results", "why_tests_cant": "What is compared is what is left after up to a million roundings. Tests use one small set of benchmarks and do not look at what is logged.", "anchors": ["internal/scoring/axis/bench/original.go:58-122", "internal/scoring/axis/benchmarks.go:57-125", "internal/scoring/axis/common/stuff.go:10-29", "internal/scoring/axis/common/range.go:56-98"]}
{"id": "C98", "title": "Colours of points in the score chart follow the scores", "statement": "Every point in the score chart has a colour: what is converted to a byte fits in one however results are rounded. Better scores are never shown in more red or less green. The worst corner is purely red and the best purely green. Without rounding, the shades of red and green are the distances from the two corners relative to the diagonal, the box taken for a square, so that they are the same along quarter circles, and equal to each other on the line from the upper left to the lower right.", "quantifier": "for all ranges of the axes with more than one value, all points (the order and the distances: in the box), all roundings that are monotone, symmetric, and accurate to 2^-20, and all monotone square roots", "why_tests_cant": "The conversion of a negative number or of NaN to a byte is left to the implementation; whether it happens depends on roundings for particular scores. No test looks at colours.", "anchors": ["cmd/server/chart/score.go:394-429", "cmd/server/chart/score.go:237-262"]}
{"id": "C99", "title": "The benchmark suite finds nothing wrong with sloggy", "statement": "For every benchmark of the suite, verifying what sloggy writes adds no warning and gives no error, whatever the time, the source position, and the random numbers of the big group, although sloggy ends its lines in carriage return and newline, puts spaces between members, and has the source's members in an order of its own.", "quantifier": "for all clocks, program counters, source positions, random numbers, logged requests whose texts can be quoted, formats of numbers as the standard library guarantees them, and orders of the maps", "why_tests_cant": "Every run has one time, one source position and one big group.", "anchors": ["bench/tests/benchmarks.go:62-272", "bench/tests/suite.go:60-141", "bench/tests/checks.go:20-266", "handlers/sloggy/handler.go:41-106", "creator/madkinssloggy/creator.go:13-27"]}
{"id": "C100", "title": "Every test with warnings is in one menu of tests", "statement": "The menu of tests of the verification run lists the tests with which that run found warnings and no others, the menu of benchmark tests lists the tests with results and no others, each test once and in the order of the names shown, no test is in both, and every test under which a warning is filed is in one of them.", "quantifier": "for all reports of both programs, all orders in which maps are visited, and all questions asked before", "why_tests_cant": "The order in which Go visits maps is random, the list is cached between requests, and tests with warnings but no results need a run that was cut short.", "anchors": ["internal/data/warnings.go:148-173", "internal/data/tags.go:9-12", "cmd/server/pages/home.gohtml:34-50", "cmd/server/parts/header.gohtml:28-50"]}
{"id": "C101", "title": "The status of the field counter shows where it is and changes nothing", "statement": "In every state the parser brings the field counter to, its String gives the number of runes before the cursor, the last of these runes (all if there are at most ten, otherwise ten to fifteen), the next fifteen runes or all that are left and a mark of the end, newlines as spaces, then the number of fields and the fields found more than once; and asking for it changes nothing.", "quantifier": "for all sources (also malformed UTF-8), all sequences of reads, unreads and changes of the counts, and all orders in which the map of duplicates is visited", "why_tests_cant": "The runes kept depend on the whole sequence of reads and unreads.", "anchors": ["internal/json/field.go:64-119", "internal/json/field.go:387-427"]}
{"id": "C102", "title": "What is shown beside scores says how they were computed", "statement": "Two axes that show the same exhibits (the table of weights and, for benchmarks, the lists of tests included and excluded) give the same scores for the same data.", "quantifier": "for all weights, lists of tests, data, roundings, and orders in which maps are visited", "why_tests_cant": "It compares any two configurations on any data.", "anchors": ["internal/scoring/axis/benchmarks.go:126-139", "internal/scoring/axis/benchmarks.go:191-218", "internal/scoring/axis/warnings.go:99-106", "internal/scoring/exhibit/list.go:29-53", "internal/scoring/exhibit/table.go:29-59", "internal/scoring/score/axis.go:46-56"]}
{"id": "C103", "title": "The map that a template hands to a part has the values given last", "statement": "For all arguments, the template function dict gives every string at an even position that is followed by a value the last value given for it, and has no other keys; keys that are not strings and a last key without value are passed over, and it does not panic.", "quantifier": "for all numbers and types of arguments", "why_tests_cant": "Templates call it with two keys only.", "anchors": ["cmd/server/server.go:446-455"]}
