{"id": "C01", "title": "Binary search returns exactly the matching lines", "statement": "On a buffer whose lines are ordered by the comparator, equal_range returns the byte range that contains every line comparing Equal to the search value and no other line; lower_bound returns the first such line (or an empty range at the insertion point), and upper_bound returns the start of the first line the value is Less than. All returned offsets are line boundaries.", "quantifier": "for every byte buffer (with or without a final newline, with empty lines), every search value, and every comparator under which the buffer's lines are ordered and which treats an empty slice like an empty line", "why_tests_cant": "The midpoint/line-boundary arithmetic behaves differently for every combination of line lengths; tests sample a handful of buffers.", "anchors": ["src/binsearch.rs: find_end, find_start, lower_bound_n, upper_bound_n, equal_range_n"]}
{"id": "C02", "title": "Binary search terminates", "statement": "lower_bound, upper_bound and equal_range return after finitely many steps on every buffer, whatever the comparator answers.", "quantifier": "for every buffer and every comparator (even an inconsistent one)", "why_tests_cant": "A hanging input shows up in a test only if that exact input is tried; termination is a statement about all of them.", "anchors": ["src/binsearch.rs: lower_bound_n, upper_bound_n"]}
{"id": "C03", "title": "Stepping backwards and forwards by lines are inverse", "statement": "From the start of any line, moving to the next line start and then asking for the previous line start returns to the original position (and conversely), so context lines shown by binsearch are whole neighbouring lines.", "quantifier": "for every buffer and every line start in it", "why_tests_cant": "Off-by-one errors here depend on empty lines and on a missing final newline in arbitrary positions.", "anchors": ["src/binsearch.rs: find_end, find_prev, find_start", "src/bin/cdx/binsearch_main.rs"]}
{"id": "C04", "title": "Plain splitting inverts joining", "statement": "Joining column values that contain neither the delimiter nor a newline with the delimiter, adding a newline, and splitting in plain mode yields the same number of columns with the same bytes, in order; joining the columns of any newline-terminated line reproduces the line.", "quantifier": "for every delimiter byte other than newline, every non-empty list of column values, every line", "why_tests_cant": "Quantifies over all bytes strings and column counts; empty leading, middle and trailing columns all interact.", "anchors": ["src/util.rs: split_plain, TextLine::get, FakeSlice::get"]}
{"id": "C05", "title": "Whole-line split and single-column extraction agree", "statement": "For a newline-terminated line, extracting column n directly from the raw line gives the same bytes as splitting the whole line and taking column n, including the empty value for columns past the end.", "quantifier": "for every delimiter other than newline, every line, every column number", "why_tests_cant": "Two separate scanners must agree on all inputs, including columns out of range.", "anchors": ["src/column.rs: get_col", "src/util.rs: split_plain, TextLine::get"]}
{"id": "C06", "title": "Backslash mode round trip", "statement": "Writing column values in backslash mode, joined by the delimiter and ended by a newline, then reading that as one line and splitting in backslash mode gives back every column value exactly (a missing trailing column reads as empty).", "quantifier": "for every list of arbitrary byte-string values, and every delimiter that is not newline, backslash, n, r or t", "why_tests_cant": "The value space is all byte strings; escapes interact with the delimiter, with newline stripping and with the position of backslashes.", "anchors": ["src/util.rs: write_backslash, split_backslash, enslash, unslash, TextLine::get"]}
{"id": "C07", "title": "A written row is one physical line", "statement": "A row written column by column, with the delimiter between columns and the line terminator at the end, contains the line terminator only at its end and exactly one delimiter byte fewer than columns, whatever bytes the values contain.", "quantifier": "for every list of values; in plain mode for every delimiter, terminator and replacement byte that are distinct; in backslash mode for a delimiter and terminator among tab, carriage return and newline", "why_tests_cant": "Row integrity has to hold for arbitrary binary values.", "anchors": ["src/util.rs: write_plain, write_backslash, TextFileMode::write"]}
{"id": "C08", "title": "Quote mode round trip", "statement": "Writing column values in quote mode and reading the row back in quote mode gives the original values; a quoted delimiter does not start a new column.", "quantifier": "for every list of byte-string values and every delimiter", "why_tests_cant": "The writer and the reader are separate state machines; agreement must hold for all values.", "anchors": ["src/util.rs: write_quotes, split_quotes, TextFileMode::read_line"]}
{"id": "C09", "title": "Reading by lines loses nothing", "statement": "Repeatedly reading lines yields lines that each end with the line terminator and (outside quote mode) contain it nowhere else; their concatenation is the file, plus one terminator exactly when a non-empty file lacked a final one. In quote mode, every line except possibly the last has an even number of quote characters.", "quantifier": "for every file content, every line terminator byte, and every quoting mode", "why_tests_cant": "Statement about all byte sequences; tests exercise a few tiny files.", "anchors": ["src/util.rs: TextFileMode::read_line, ensure_eof"]}
{"id": "C10", "title": "Reader lookback window", "statement": "After any number of line reads through a Reader with lookback n, asking for the k-th previous line (k \u2264 n and no further back than the start) returns exactly the k-th previously read line, for k = 0 the current one.", "quantifier": "for every file, every lookback size, every number of reads and every k within the window", "why_tests_cant": "Circular-buffer index arithmetic has to be right for all sizes and wrap positions.", "anchors": ["src/util.rs: Reader::getline, Reader::incr, Reader::prev_line"]}
{"id": "C11", "title": "Reader location counts", "statement": "A Reader opened with its file name reports, while positioned on a line, the 1-based number of that line (not counting the header) and the byte offset at which the line starts in the file, whichever way the file was opened.", "quantifier": "for every file content (with final newline), every header, and every number of reads", "why_tests_cant": "Counter drift only shows on long histories; the claim is about all of them and about both ways of opening.", "anchors": ["src/util.rs: Reader::open, Reader::new_open_with, Reader::getline, FileLocData"]}
{"id": "C12", "title": "Header policy over a sequence of files", "statement": "When files are processed in order with header policy Match, the run is accepted exactly when all files with CDX headers have the same header and either all or none have one; Require: every file has a header and all are the same; Strip: every run is accepted and no header reaches the output; None: no file has one; Trust: every run is accepted and only the first header is written; Ignore: every line is data. The answer for each file says whether its first line is data to be written.", "quantifier": "for every policy and every finite sequence of first lines", "why_tests_cant": "The checker is stateful; wrong behaviour depends on which file comes first.", "anchors": ["src/util.rs: HeaderChecker::check, HeaderChecker::check_file, HeaderMode, is_valid_cdx"]}
{"id": "C13", "title": "Glob matching is exact", "statement": "A glob of literal characters, ? (any one character) and * (any, possibly empty, sequence) matches a text exactly when the text can be cut up accordingly.", "quantifier": "for every pattern and every text, case sensitive or not", "why_tests_cant": "The set of texts matched by a pattern is infinite; backtracking bugs hide in particular repetitions.", "anchors": ["src/text.rs: Text::glob, Case"]}
{"id": "C14", "title": "A glob match is never wrong", "statement": "Whenever glob matching returns true, the text really can be cut up according to the pattern; and for patterns without * the answer is exact.", "quantifier": "for every pattern and every text, case sensitive or not", "why_tests_cant": "Soundness over an infinite language.", "anchors": ["src/text.rs: Text::glob"]}
{"id": "C15", "title": "Bracket matching", "statement": "find_close on a text starting with an opening bracket returns the length of the shortest prefix in which that kind of bracket is balanced, and fails exactly when no prefix is balanced or the first character is not a bracket.", "quantifier": "for every text", "why_tests_cant": "Nesting depth and position are unbounded.", "anchors": ["src/util.rs: find_close, closer"]}
{"id": "C16", "title": "Literal escape decoding", "statement": "In-line data given as '<<text' decodes by replacing \\n, \\t, \\s by newline, tab, space and backslash-anything-else by that character; every byte string has an encoding that decodes to it, and text without backslashes is unchanged.", "quantifier": "for every byte string", "why_tests_cant": "Round trip over all byte strings.", "anchors": ["src/util.rs: unescape_vec, get_reader"]}
{"id": "C17", "title": "Trailing newline removal", "statement": "chomp returns the longest prefix not ending in CR or LF: it removes only CR/LF bytes, leaves no trailing one, and is idempotent.", "quantifier": "for every byte string", "why_tests_cant": "Arbitrary mixtures and lengths.", "anchors": ["src/util.rs: chomp"]}
{"id": "C18", "title": "Column selection semantics", "statement": "A column set built from a list of selections (single columns, ranges, ranges open at either end, names, counts from the end, all, and negated ones) resolves to the concatenation, in the given order, of the selected columns, minus every column selected by any negated item; resolution succeeds only with column numbers that exist in the header.", "quantifier": "for every header, every list of selections", "why_tests_cant": "Combinatorial: selections interact with each other and with the header.", "anchors": ["src/column.rs: ColumnSet::add_yes, add_no, lookup, range, single, lookup_col, lookup1"]}
{"id": "C19", "title": "Inverted ranges, zero and out-of-range columns are rejected", "statement": "A column range whose start is after its end, a column number 0 or a number greater than the number of columns, and an unknown name make the lookup fail rather than select something else.", "quantifier": "for every header and every selection", "why_tests_cant": "Every header width and every number has to be checked.", "anchors": ["src/column.rs: ColumnSet::single, ColumnSet::range, ColumnSet::lookup_col"]}
{"id": "C20", "title": "Output column names are unique", "statement": "However many column names are pushed, with duplicates either rejected or renumbered, the resulting header has no two equal names; under the renumbering policy no column is lost, so header and data have the same number of columns.", "quantifier": "for every sequence of valid names", "why_tests_cant": "Renumbered names can collide with later names; needs all sequences.", "anchors": ["src/column.rs: ColumnHeader::push, DupColHandling"]}
{"id": "C21", "title": "Cutting columns reorders faithfully", "statement": "Writing a column set of a line outputs exactly the selected columns' bytes in selection order, separated by the delimiter and ended by newline; selecting all columns in order reproduces the line.", "quantifier": "for every line, every delimiter, every column selection within range", "why_tests_cant": "All column counts and permutations.", "anchors": ["src/column.rs: ColumnSet::write, write2, OutCol", "src/bin/cdx/cut_main.rs"]}
{"id": "C22", "title": "Comparators are total preorders", "statement": "Each comparison method (plain bytes, reversed, case-insensitive, length, IP address, right-to-left...) is reflexive, antisymmetric in the sense that swapping arguments reverses the answer, and transitive, so sorting is well defined.", "quantifier": "for all triples of byte strings", "why_tests_cant": "Transitivity is a property of all triples; the sort's behaviour is undefined without it.", "anchors": ["src/comp.rs: Compare implementations, ip_cmp", "src/text.rs: Text::cmp_insens"]}
{"id": "C23", "title": "Numeric comparison orders digit strings by value", "statement": "The arbitrary-precision numeric comparison agrees with comparing the integer values, for any number of digits, leading zeros and signs.", "quantifier": "for all pairs of optionally signed digit strings", "why_tests_cant": "Unbounded digit strings.", "anchors": ["src/comp.rs: num_cmp_signed, num_cmp_unsigned"]}
{"id": "C24", "title": "Numeric comparison is a consistent ordering", "statement": "The numeric comparison is transitive and treats numbers with different fractional parts as different.", "quantifier": "for all triples of byte strings", "why_tests_cant": "Transitivity over all triples.", "anchors": ["src/comp.rs: num_cmp_signed, num_cmp_unsigned, CompareNumeric"]}
{"id": "C25", "title": "Cached and direct comparison agree", "statement": "Comparing two lines via precomputed sort keys gives the same answer as comparing them directly, for every comparison method and with reverse applied, so a sort, a merge and a check of the same file agree.", "quantifier": "for every comparator, every pair of lines", "why_tests_cant": "Key truncation and sign effects appear only for particular pairs among all pairs.", "anchors": ["src/comp.rs: LineComp::comp_items, fill_cache_line, Compare::fill_cache, Item"]}
{"id": "C26", "title": "Floating-point sort keys preserve order", "statement": "The 64-bit unsigned key computed from a floating point number orders exactly as the numbers do.", "quantifier": "for all pairs of non-NaN 64-bit floats", "why_tests_cant": "2^128 pairs.", "anchors": ["src/num.rs: ulp_to_ulong, fcmp"]}
{"id": "C27", "title": "Multi-key comparison is lexicographic", "statement": "A list of comparators compares lines by the first comparator that distinguishes them; if each is a total preorder so is the list, and reversing one key reverses only that key.", "quantifier": "for every list of comparators, all lines", "why_tests_cant": "Arbitrary key lists.", "anchors": ["src/comp.rs: LineCompList::comp_cols, comp_lines, comp_self_cols"]}
{"id": "C28", "title": "Sort outputs a sorted stable permutation", "statement": "Sorting outputs a permutation of the input lines, ordered by the comparator, with equal lines kept in input order; with unique it outputs exactly the first line of each class of equal lines.", "quantifier": "for every sequence of lines, every total-preorder comparator, every split of the input into temporary runs", "why_tests_cant": "Quantifies over every input order and every way the memory limit cuts the input.", "anchors": ["src/sort.rs: Sorter::add, Sorter::do_sort, Sorter::finalize, merge_t2, merge_t1"]}
{"id": "C29", "title": "Merging sorted files", "statement": "Merging any number of individually sorted files yields the sorted, stable (file order breaks ties) permutation of all their lines; with unique, one line per class of equal lines.", "quantifier": "for every number of files, all sorted inputs", "why_tests_cant": "Tree shape depends on the number of files; all sizes.", "anchors": ["src/sort.rs: merge_t1, merge_t2, MergeTreeItem"]}
{"id": "C30", "title": "Memory-limited sort equals in-memory sort", "statement": "The output does not depend on the memory limit: spilling sorted runs to temporary files and merging gives the same lines as sorting in memory.", "quantifier": "for every input, every buffer limit", "why_tests_cant": "Every position at which the buffer fills.", "anchors": ["src/sort.rs: Sorter::add, Sorter::do_sort, Sorter::finalize, merge_t"]}
{"id": "C31", "title": "Join emits exactly the matching pairs", "statement": "For two sorted files where the second has distinct keys, quick join outputs one combined line for each line of the first file whose key occurs in the second (columns of file 1 then the selected ones of file 2), in order, and routes the rest to the unmatched outputs.", "quantifier": "for all sorted inputs, every comparator", "why_tests_cant": "Two cursors interleave in unboundedly many ways.", "anchors": ["src/join.rs: Joiner::join_quick"]}
{"id": "C32", "title": "Smooth sampling", "statement": "Sampling n lines (n \u2265 2) outputs an in-order subsequence of the input with at most n lines that contains the first and the last input line, and the whole input if it has at most n lines.", "quantifier": "for every n and every input length", "why_tests_cant": "Thinning happens repeatedly at exponentially growing lengths.", "anchors": ["src/sampler.rs: Smooth::add, Smooth::collapse, Smooth::finalize"]}
{"id": "C33", "title": "Screen fitting keeps and never widens columns", "statement": "Fitting column widths to a screen at least as wide as the number of columns keeps the number of columns, never makes a column wider than its content, makes the total (with one separator per column) fit the screen while giving up no more width than needed, and takes width only from the widest columns.", "quantifier": "for every list of widths and every screen width", "why_tests_cant": "Iterative shrinking over arbitrary width vectors.", "anchors": ["src/tabs.rs: dec_max, show, show2"]}
{"id": "C34", "title": "Transposition", "statement": "Transposing a table outputs, as row i, the i-th column name followed by the i-th value of every line in order; transposing a rectangular table twice is the identity.", "quantifier": "for every rectangular table", "why_tests_cant": "All sizes.", "anchors": ["src/transpose.rs: transpose"]}
{"id": "C35", "title": "Accepted formulas always evaluate", "statement": "If the expression parser accepts a formula, evaluation of the resulting program never runs out of operands and ends with exactly one value.", "quantifier": "for every token sequence, all variable values", "why_tests_cant": "Infinite set of token sequences; a stack underflow is a crash.", "anchors": ["src/shunting_yard.rs: to_rpn", "src/expr.rs: Expr::do_eval, rpn_to_expr"]}
{"id": "C36", "title": "Operator precedence and associativity", "statement": "The compiled program of an infix formula written from an expression tree with the minimal parentheses required by the precedence table is the postfix form of that tree: * / % bind tighter than + -, those tighter than comparisons, ^ associates to the right and binds tightest, the others to the left, unary minus binds tighter than *.", "quantifier": "for every expression tree", "why_tests_cant": "Infinitely many trees.", "anchors": ["src/shunting_yard.rs: to_rpn, prec_assoc"]}
{"id": "C37", "title": "Constant folding preserves meaning", "statement": "Pre-computing constant subexpressions does not change the value of a formula.", "quantifier": "for every compiled program and all variable values", "why_tests_cant": "All programs.", "anchors": ["src/expr.rs: rpn_to_expr, do_eval"]}
{"id": "C38", "title": "Size suffixes", "statement": "An integer with suffix K, M, G, T, P, E means times the corresponding power of 1024 (lower case: power of 1000), the same as for floating point numbers.", "quantifier": "for every suffix letter", "why_tests_cant": "The claim is an equation for each table entry and every number.", "anchors": ["src/num.rs: suffix_valu, suffix_valf, P2_VALUES_U, P10_VALUES_U", "src/text.rs: Text::to_usize"]}
{"id": "C39", "title": "Unsigned integer parsing", "statement": "Parsing an unsigned integer from text returns the value of the longest prefix of digits (with suffix) and the unparsed rest; a whole-text parse accepts exactly texts with nothing left over.", "quantifier": "for every text", "why_tests_cant": "Unbounded inputs including overflow.", "anchors": ["src/text.rs: Text::to_usize, to_usize_whole, to_isize"]}
{"id": "C40", "title": "Comparison operators", "statement": "Operators form a consistent algebra: exactly one of LT, EQ, GT holds for an ordering, LE/GE/NE are the negations of GT/LT/EQ, and swapping operand order corresponds to the inverted operator.", "quantifier": "for all operators and all orderings", "why_tests_cant": "Finite table, but all consumers rely on the laws for every value.", "anchors": ["src/util.rs: CompareOp::invert, CompareOp::ord_ok"]}
{"id": "C41", "title": "'line OP value' selects the lines the user asked for", "statement": "A check written as OP,value accepts a line exactly when the line compares OP the value, and a two-sided check exactly when both bounds hold, in normal and verbose mode alike.", "quantifier": "for every operator, value, comparator and line", "why_tests_cant": "Infinite inputs; both modes must agree.", "anchors": ["src/util.rs: CompareOp::line_ok, line_ok_verbose, CheckLine::line_ok, CheckLine::set_with, CheckBuff::buff_ok"]}
{"id": "C42", "title": "Deciding early never changes a count-based match", "statement": "When several columns are matched and the condition is about how many of them match (all, any, none, at least n, exactly n...), stopping as soon as the running counts decide gives the same answer as evaluating every column.", "quantifier": "for every threshold, number of columns and sequence of match results", "why_tests_cant": "All sequences of outcomes.", "anchors": ["src/matcher.rs: Determiner, Thresh, match_mid, match_final"]}
{"id": "C43", "title": "Fractional match thresholds", "statement": "'At least fraction f' accepts exactly when (to the nearest column) the matched fraction is at least f, and 'at most f' when it is at most f.", "quantifier": "for every fraction, number of columns and match count", "why_tests_cant": "All counts.", "anchors": ["src/matcher.rs: Thresh, Determiner", "src/num.rs: f64_greater, f64_less"]}
{"id": "C44", "title": "Common prefix and suffix aggregation", "statement": "The prefix (suffix) aggregator over a group of values returns their longest common prefix (suffix), independent of the order of the values.", "quantifier": "for every non-empty sequence of values", "why_tests_cant": "All sequences of byte strings.", "anchors": ["src/agg.rs: common_prefix, common_suffix, Prefix, Suffix"]}
{"id": "C45", "title": "Minimum and maximum aggregation", "statement": "The min (max) aggregator returns a value of the group that no other value is less (greater) than.", "quantifier": "for every non-empty sequence of values and every total-preorder comparator", "why_tests_cant": "All sequences.", "anchors": ["src/agg.rs: Min, Max"]}
{"id": "C46", "title": "Merge aggregation", "statement": "The merge aggregator lists the delimited parts of all values that are not empty, in order: sorted (stably) if asked for, with runs of equal parts collapsed if asked for, without parts whose length is out of bounds, and at most max_parts of them, joined by the output delimiter; with count, it gives the length of that list.", "quantifier": "for every sequence of values and every combination of options", "why_tests_cant": "Option combinations times all inputs.", "anchors": ["src/agg.rs: Merge", "src/util.rs: split_plain"]}
{"id": "C47", "title": "Arithmetic mean", "statement": "The amean aggregator reports the sum of the values divided by their number.", "quantifier": "for every non-empty sequence of values", "why_tests_cant": "All sequences.", "anchors": ["src/agg.rs: AMean"]}
{"id": "C48", "title": "Whitespace normalisation", "statement": "normspace removes leading and trailing whitespace and turns each inner run of whitespace into one space, changes nothing else, and is idempotent.", "quantifier": "for every byte string", "why_tests_cant": "All byte strings.", "anchors": ["src/trans.rs: NormSpace"]}
{"id": "C49", "title": "Translation pipelines compose left to right", "statement": "A list of translations applied to a value equals applying each in turn to the previous result; an empty list is the identity.", "quantifier": "for every list of translations and every value", "why_tests_cant": "All lists: the implementation alternates between two buffers.", "anchors": ["src/trans.rs: TransList::trans"]}
{"id": "C50", "title": "Copying a line copies what is written", "statement": "After a line object is assigned from another one, the text written for it, its columns and its column count are those of the source line, in every quoting mode.", "quantifier": "for all pairs of lines in any mode", "why_tests_cant": "The destination may carry leftovers from any earlier line.", "anchors": ["src/util.rs: TextLine::assign, TextLine::line, TextLine::get", "src/bin/cdx/uniq_main.rs"]}
{"id": "C51", "title": "uniq keeps one line per group of adjacent equal lines", "statement": "uniq outputs, for each maximal run of adjacent lines comparing equal, exactly one line of that run (first, last, min or max as requested), in order, with a count equal to the run's length; the counts sum to the number of input lines.", "quantifier": "for every input and every equivalence comparator", "why_tests_cant": "Run boundaries can be anywhere.", "anchors": ["src/bin/cdx/uniq_main.rs"]}
{"id": "C52", "title": "cat outputs all lines of all files", "statement": "Concatenating files outputs the header once and then every data line of every file in order, each line properly terminated, even if a file lacks a final newline or has only a header.", "quantifier": "for every sequence of files", "why_tests_cant": "The fast and the slow path must agree on all contents.", "anchors": ["src/bin/cdx/cat_main.rs"]}
{"id": "C53", "title": "verify reports every bad line", "statement": "verify fails if and only if some line breaks a requirement (ordering or pattern), wherever in the file it is.", "quantifier": "for every file and requirement", "why_tests_cant": "A failure position may be missed only at particular places such as the last line.", "anchors": ["src/bin/cdx/verify_main.rs"]}
{"id": "C54", "title": "Order check agrees with sortedness", "statement": "The sortedness check reports no failure exactly when each line is not greater than the next (strictly less with unique).", "quantifier": "for every file and comparator", "why_tests_cant": "All files.", "anchors": ["src/comp.rs: comp_check", "src/bin/cdx/sort_main.rs", "src/bin/cdx/verify_main.rs"]}
{"id": "C55", "title": "paste pads and stops as asked", "statement": "Pasting files outputs line i as the concatenation of line i of each file; with end=early the number of lines is the minimum over files, with end=late the maximum with exhausted files padded, and with exact a mismatch is an error.", "quantifier": "for every number of files and all lengths", "why_tests_cant": "All combinations of lengths.", "anchors": ["src/bin/cdx/paste_main.rs"]}
{"id": "C56", "title": "cgrep partitions the input", "statement": "cgrep and cgrep --invert output complementary subsequences: every data line appears in exactly one of the two outputs, in input order.", "quantifier": "for every input and every pattern list", "why_tests_cant": "All inputs and patterns.", "anchors": ["src/bin/cdx/cgrep_main.rs", "src/matcher.rs: LineMatcherList::ok"]}
{"id": "C57", "title": "Combining matchers", "statement": "A list of matchers combined with And (Or) accepts a line exactly when all (some) of its matchers accept it.", "quantifier": "for every list of matchers, every line", "why_tests_cant": "All lists.", "anchors": ["src/matcher.rs: LineMatcherList::ok, MatcherList"]}
{"id": "C58", "title": "Matcher modifiers", "statement": "'not' inverts the decision of the matcher it is applied to, 'null' makes the matcher also accept empty values, in every context the matcher is used.", "quantifier": "for every matcher, every value", "why_tests_cant": "All matchers and values.", "anchors": ["src/matcher.rs: MatchMaker, Matcher::umatch, Matcher::smatch"]}
{"id": "C59", "title": "sample line ranges", "statement": "sample --range a-b prints exactly lines a..b (1-based) of the input.", "quantifier": "for every range and input", "why_tests_cant": "All ranges.", "anchors": ["src/bin/cdx/sample_main.rs"]}
{"id": "C60", "title": "wc counts", "statement": "wc reports the number of lines, bytes and words of the input, and totals over several files are the sums.", "quantifier": "for every sequence of files", "why_tests_cant": "All files, independent of how input is chunked into buffers.", "anchors": ["src/bin/cdx/wc_main.rs"]}
{"id": "C61", "title": "Overwriting an output file", "statement": "After writing output to a named file, the file contains exactly the output.", "quantifier": "for every previous file content and output", "why_tests_cant": "Depends on previous file content.", "anchors": ["src/util.rs: get_writer"]}
{"id": "C62", "title": "Head and tail of a delimited value", "statement": "head(n) and tail(n) of a delimited value are its first and last n parts (with the delimiters between them), everything if there are no more than n parts, nothing for n = 0; the path variants do not count the empty part made by one leading (head) or trailing (tail) delimiter.", "quantifier": "for every value, delimiter and n", "why_tests_cant": "All byte strings and counts.", "anchors": ["src/text.rs: Text::head, Text::tail_u8, Text::head_path, Text::tail_path_u8, tail_u8_len"]}
{"id": "C63", "title": "Prefix and suffix matching, case-blind", "statement": "Prefix/suffix matchers accept exactly the values starting/ending with the pattern, and the case-insensitive ones exactly the values for which this holds after lower-casing both.", "quantifier": "for every pattern and value", "why_tests_cant": "All byte strings.", "anchors": ["src/matcher.rs: bcase_prefix, bcase_suffix, prefix/suffix matchers"]}
{"id": "C64", "title": "Selecting byte ranges of a value", "statement": "The bytes translation with positions n and ranges a-b outputs exactly byte n (bytes a through b), 1-based and clipped to the value, for each item in the given order; an item with a zero or with a > b is rejected.", "quantifier": "for every spec and value", "why_tests_cant": "All lengths.", "anchors": ["src/util.rs: FakeSlice::new, FakeSlice::get_safe", "src/trans.rs: BytesTrans"]}
{"id": "C65", "title": "Lines pass through unchanged", "statement": "Reading a file line by line and writing each line as it is read reproduces the data part of the file (with its final line terminator supplied), in every text mode.", "quantifier": "for every file, header mode, delimiter and quoting mode", "why_tests_cant": "All file contents; the decoding of a line must not leak into output that is meant to be a copy.", "anchors": ["src/util.rs: Reader::write_curr, Reader::getline, Reader::open"]}
{"id": "C66", "title": "Unmatched output of a join is part of the input", "statement": "The file written by join --also consists of the header of that input file, if it has one, followed by its unmatched lines, and nothing else.", "quantifier": "for every pair of sorted files, with or without headers", "why_tests_cant": "Presence of headers and unboundedly many line patterns combine.", "anchors": ["src/join.rs: Joiner::join", "src/util.rs: Reader::write_header, InfileContext::read_header"]}
{"id": "C67", "title": "Join rejects unsorted input", "statement": "Unless the sortedness check is skipped, join fails when an input file is not sorted by the join keys; in any case each line of the first file is routed to exactly one output.", "quantifier": "for every pair of files, sorted or not", "why_tests_cant": "The place where the order breaks is arbitrary.", "anchors": ["src/join.rs: JoinConfig::skip_check, Joiner::join_quick"]}
{"id": "C68", "title": "Join of more than two files", "statement": "Joining three or more sorted files (all but the first with distinct keys) combines, for each line of the first file, the lines of the other files with the same key.", "quantifier": "for all sorted inputs, any number of files", "why_tests_cant": "Cursors of several files interleave in unboundedly many ways.", "anchors": ["src/join.rs: Joiner::join_quick"]}
{"id": "C69", "title": "Smooth samples are even", "statement": "No two neighbouring lines of a sample of n lines are further apart in the input than twice the ideal distance (N-1)/(n-1), N being the number of input lines.", "quantifier": "for every n and every input length N >= n", "why_tests_cant": "The thinning state depends on the whole length of the input; positions are computed in floating point.", "anchors": ["src/sampler.rs: Smooth::add, Smooth::collapse"]}
{"id": "C70", "title": "A table on the screen", "statement": "Showing a table prints each line as its fields in order, one space apart, each cut to a beginning and padded to exactly the width of its column (all of it if the column is wide enough), the header centered; the width reported is at most that of the screen; no file panics.", "quantifier": "for every file, every screen size and every width function of characters", "why_tests_cant": "All field contents, column counts and widths.", "anchors": ["src/tabs.rs: show, show2"]}
{"id": "C71", "title": "Only formulas are accepted", "statement": "Every token sequence the expression parser accepts, other than parentheses alone, is a formula of the grammar: operands and operators alternate, and it writes exactly one expression.", "quantifier": "for every text of a formula", "why_tests_cant": "Infinitely many malformed texts.", "anchors": ["src/shunting_yard.rs: to_rpn", "src/tok2.rs: tokenize"]}
{"id": "C72", "title": "Columns in formulas", "statement": "A column in brackets, or named by its number after a c, refers to that column; a variable with the name of a column refers to the first column of that name.", "quantifier": "for every header and every column", "why_tests_cant": "All headers, including column names that look like column numbers.", "anchors": ["src/expr.rs: Expr::lookup"]}
{"id": "C73", "title": "Functions compute what they are called", "statement": "Each named function of a formula computes the library function of that name; max and min return an argument that no other argument exceeds; a call never reads a missing argument.", "quantifier": "for every function of the table and all arguments", "why_tests_cant": "All arguments and, for max and min, any number of them.", "anchors": ["src/expr.rs: apply_func, FUNCS, min_args, max_args"]}
{"id": "C74", "title": "Factorials", "statement": "The factorial of a whole number is right to 15 digits, and infinite only if it is beyond the range of doubles.", "quantifier": "for every whole number", "why_tests_cant": "Every number, however large.", "anchors": ["src/expr.rs: factorial, FACTORIAL"]}
{"id": "C75", "title": "Range specifications mean the operators written", "statement": "A range written as an operator and a value, or as two of them, by symbols or by names, is taken apart into exactly those operators and values.", "quantifier": "for all operators and all values free of operator characters and commas", "why_tests_cant": "Infinitely many values; the alternatives of a regular expression are tried in order, so one operator can hide another.", "anchors": ["src/util.rs: RangeSpec::new, RangeSpec::new_trail"]}
{"id": "C76", "title": "Matching methods accept what they are named for", "statement": "prefix, suffix, infix, exact, empty, blank, comment, hash, slash, length and glob, with and without case, accept exactly the values their descriptions say, and never panic.", "quantifier": "for every pattern and every value", "why_tests_cant": "All patterns and values; tests use short non-empty ASCII patterns.", "anchors": ["src/matcher.rs: MatchMaker::init, impl Match for *"]}
{"id": "C77", "title": "Number-like methods", "statement": "integer, number, float and ip accept exactly the texts of their grammars: optional minus, digits, a fraction, an exponent; four numbers up to 255 with points.", "quantifier": "for every value", "why_tests_cant": "The languages are infinite.", "anchors": ["src/matcher.rs: MatchMaker::init (integer, number, float, ip)"]}
{"id": "C78", "title": "Matching against the lines of a file", "statement": "file-exact accepts a value exactly if it is a line of the file, with or without case.", "quantifier": "for every file content and every value", "why_tests_cant": "All file contents, including empty lines, a missing final newline and headers.", "anchors": ["src/matcher.rs: load_hashset, load_hashset_c, FileExactMatch, FileExactMatchC"]}
{"id": "C79", "title": "Multi-patterns", "statement": "With and (or) added to a method, the pattern is cut at its first character and a value is accepted if all (some) of the parts accept it with the method alone; a bad pattern is an error.", "quantifier": "for every method, every pattern and every value", "why_tests_cant": "All combinations of method words, delimiters and parts.", "anchors": ["src/matcher.rs: MatchMaker::make2, MatcherList"]}
{"id": "C80", "title": "Line matcher specifications", "statement": "Column,method,pattern tests that column, an empty column the whole line without its newline, and [determiner,columns],method,pattern that set of columns with that determiner.", "quantifier": "for all columns, methods, patterns, determiners and column sets", "why_tests_cant": "All specifications; no test uses a column set.", "anchors": ["src/matcher.rs: make_line, make_line3, ColSetMatcher, WholeMatcher", "src/util.rs: find_close, line_nl"]}
{"id": "C81", "title": "Base64 is exact", "statement": "to_base64 never fails and from_base64 yields a value exactly for the text to_base64 makes of it; encoded values contain no tab or newline.", "quantifier": "for every value and every text", "why_tests_cant": "Infinitely many values; the encoder writes into a buffer whose size is guessed beforehand.", "anchors": ["src/trans.rs: Base64Trans"]}
{"id": "C82", "title": "Names of transforms", "statement": "A dotted name means the transform of its last word other than utf8, in the Unicode version exactly if utf8 is among the words; lowercase and uppercase are lower and upper.", "quantifier": "for every name, pattern and position in the program", "why_tests_cant": "Tests make transforms in one process in one order, so the state of the table of aliases is hidden.", "anchors": ["src/trans.rs: TransMaker::make, make2, resolve_alias, init"]}
{"id": "C83", "title": "Cloning a transform", "statement": "Cloning a transform re-reads its specification: that never panics and yields the same transform.", "quantifier": "for every specification that makes a transform", "why_tests_cant": "All specifications, with empty patterns and aliases.", "anchors": ["src/trans.rs: impl Clone for Transform"]}
{"id": "C84", "title": "Case transforms", "statement": "lower and upper map every ASCII letter to the case named, leave every other byte alone and keep the length.", "quantifier": "for every byte string", "why_tests_cant": "All byte strings.", "anchors": ["src/trans.rs: LowerTrans, UpperTrans"]}
{"id": "C85", "title": "Counting words", "statement": "The counters swords and awords count the maximal runs of non-blank bytes (of ASCII letters and digits); chars counts the bytes.", "quantifier": "for every value", "why_tests_cant": "All byte strings, including leading, trailing and repeated blanks.", "anchors": ["src/agg.rs: Chars, Swords, Awords"]}
{"id": "C86", "title": "Sums, counts and extremes", "statement": "sum and mean are the sum of the numbers from left to right and that divided by their number; asum, amin and amax are the sum, the smallest and the greatest of the counts; count is its start plus the number of values.", "quantifier": "for every sequence of values and every counter", "why_tests_cant": "All sequences, including those where the first value is extreme.", "anchors": ["src/agg.rs: Sum, Mean, ASum, AMin, AMax, Count"]}
{"id": "C87", "title": "Groups are independent", "statement": "After any values, reset leaves an aggregator in the state it was made in, so that the result for a group depends on the values of that group only.", "quantifier": "for every specification that makes an aggregator and all sequences of values", "why_tests_cant": "All sequences for all aggregators; each has its own reset.", "anchors": ["src/agg.rs: Agg::reset, AggMaker::make"]}
{"id": "C88", "title": "Signed numbers", "statement": "Every decimal text of an isize, with or without sign, is read as that number, and a size suffix multiplies it.", "quantifier": "for every number from -2^63 to 2^63-1 and every suffix", "why_tests_cant": "2^64 numbers; overflow at the ends only.", "anchors": ["src/text.rs: to_isize, to_isize_whole", "src/num.rs: suffix_valu"]}
{"id": "C89", "title": "Options of merge", "statement": "Options of merge separated by dots, in any order with the comparator last, are all applied.", "quantifier": "for every list of well-formed options", "why_tests_cant": "All orders of options.", "anchors": ["src/agg.rs: Merge::new, Merge::add_one"]}
{"id": "C90", "title": "Names of aggregators", "statement": "An aggregator is made from exactly the twelve names and four aliases, an alias makes what its name makes, and the pattern is what follows the first comma.", "quantifier": "for every specification", "why_tests_cant": "All names, including dotted ones.", "anchors": ["src/agg.rs: AggMaker::make, make2, resolve_alias, init"]}
{"id": "C91", "title": "uniq without a key", "statement": "Without --key, uniq compares whole lines, as sort does.", "quantifier": "for every input", "why_tests_cant": "All inputs.", "anchors": ["src/bin/cdx/uniq_main.rs", "src/comp.rs: LineCompList"]}
{"id": "C92", "title": "The count column", "statement": "With --count, header and rows get one more column, both at the same end, and the header is an error exactly if a name occurs twice.", "quantifier": "for every row, header, count, name and position", "why_tests_cant": "All rows; header and rows are written by different code.", "anchors": ["src/bin/cdx/uniq_main.rs: Count::write, Count::get_count"]}
{"id": "C93", "title": "cat with numbers and lines removed", "statement": "With --number, --remove or --skip, cat writes the header once, with the name of the number column, and then the lines of all files that are not removed, numbered consecutively over the files except those skipped.", "quantifier": "for every sequence of files with the same header, every predicate and every start", "why_tests_cant": "All sequences of files, also with files that have only a header.", "anchors": ["src/bin/cdx/cat_main.rs"]}
{"id": "C94", "title": "Values for columns", "statement": "A value given for a set of columns is the text before the first delimiter, and each column has the value given last for a set that contains it, or the default.", "quantifier": "for every list of values, sets of columns and names", "why_tests_cant": "All overlapping sets.", "anchors": ["src/column.rs: ScopedValue::new, ScopedValues::lookup, ScopedValues::get"]}
{"id": "C95", "title": "Names of columns without header", "statement": "A file without a header gets as many names as its first line has columns, c1, c2 and so on, all different.", "quantifier": "for every file and text mode", "why_tests_cant": "All numbers of columns and all delimiters.", "anchors": ["src/util.rs: read_header, make_header"]}
{"id": "C96", "title": "Lines at regular distances", "statement": "sample --for by,from,to writes exactly the lines from, from+by, from+2*by and so on up to to, counted from 1, of every file.", "quantifier": "for every loop, every list of files with the same header, every text mode", "why_tests_cant": "All steps and line numbers, overflow of the next line number.", "anchors": ["src/bin/cdx/sample_main.rs"]}
{"id": "C97", "title": "Sampling several files", "statement": "sample --sample n writes the common header once, and for each file min(n, number of lines) of its lines in order, with the first and the last line, and all lines if there are at most n.", "quantifier": "for every n, every list of files with the same header", "why_tests_cant": "All numbers of lines and files.", "anchors": ["src/bin/cdx/sample_main.rs", "src/sampler.rs"]}
{"id": "C98", "title": "Texts of ranges", "statement": "A list of ranges such as 1-5,42 is accepted exactly if each piece is a number or two numbers with a dash, and it means those ranges.", "quantifier": "for every text", "why_tests_cant": "All texts.", "anchors": ["src/bin/cdx/sample_main.rs: Ranges::push"]}
{"id": "C99", "title": "The short format of numbers", "statement": "The default format prints a whole number in plain or in exponential notation, whichever is not longer.", "quantifier": "for every integer", "why_tests_cant": "All integers, among them zero and the borders between the notations.", "anchors": ["src/num.rs: NumFormat::print, new_format"]}
{"id": "C100", "title": "Printing whole numbers", "statement": "In the formats short, plain and float, a whole number is printed as a text that means exactly this number, or the number rounded to the digits asked for.", "quantifier": "for every integer, format and precision", "why_tests_cant": "All integers and precisions; rounding can carry into a new digit.", "anchors": ["src/num.rs: NumFormat::print"]}
{"id": "C101", "title": "Numbers with a letter for the power", "statement": "In the formats power2 and power10 numbers below 1000 are printed exactly, and others with a letter for a power such that the printed value is within one part in ten of the number.", "quantifier": "for every integer", "why_tests_cant": "All integers; the loop over the powers has special cases at each border.", "anchors": ["src/num.rs: NumFormat::print"]}
{"id": "C102", "title": "The format of wc", "statement": "Every number that wc writes is written in the format given with --format.", "quantifier": "for every list of aggregators, files and formats", "why_tests_cant": "All lists of aggregators, also the default one.", "anchors": ["src/bin/cdx/wc_main.rs", "src/agg.rs: AggList::fmt"]}
{"id": "C103", "title": "wc by column", "statement": "With --columns wc writes one row for each name of a column, computed from all fields below this name in all files, and the totals are their sums.", "quantifier": "for every list of files, aggregators and options", "why_tests_cant": "All combinations of files with different columns in different order.", "anchors": ["src/bin/cdx/wc_main.rs"]}
{"id": "C104", "title": "Writing and reading back under one name", "statement": "What was written to a file given by name is what a tool reads when it is given that name.", "quantifier": "for every name, content and state of the file system", "why_tests_cant": "All names, also those that look like special input or output.", "anchors": ["src/util.rs: get_writer, get_reader"]}
{"id": "C105", "title": "Comparing strings without case", "statement": "Two strings are ordered, ignoring case, like their lower case; they are equal exactly if their lower case is equal.", "quantifier": "for every pair of strings and every table of lower case letters", "why_tests_cant": "All pairs, among them characters whose lower case is shorter or longer.", "anchors": ["src/text.rs: equal_insens, cmp_insens"]}
{"id": "C106", "title": "Reading floating point numbers", "statement": "A text is read as a float if and only if it is an optional sign, digits with an optional point, an optional exponent and an optional suffix, and the value is the one it denotes.", "quantifier": "for every text", "why_tests_cant": "All texts, with exact values.", "anchors": ["src/text.rs: to_f64, to_f64_whole"]}
{"id": "C107", "title": "Printed numbers are read back", "statement": "A whole number printed in any format is read back as the same number, or one within the precision of the format.", "quantifier": "for every integer up to the range of f64, format and precision", "why_tests_cant": "All integers, formats and precisions.", "anchors": ["src/num.rs: NumFormat::print", "src/text.rs: to_f64"]}
{"id": "C108", "title": "Junk in numbers", "statement": "If trailing junk is allowed, the value is read from texts that begin with a number and is the junk value for others; if none is allowed, it is read from texts that are a number to the end, and is the junk value for others.", "quantifier": "for every text, type of number and junk value", "why_tests_cant": "All texts.", "anchors": ["src/text.rs: to_usize_junk, to_isize_junk, to_f64_junk", "src/num.rs: Junk"]}
{"id": "C109", "title": "Tables of makers", "statement": "After any calls of push and add_alias, a name makes what was pushed last under it, an alias makes what its name makes, modifiers are refused, and no name is listed twice.", "quantifier": "for every sequence of calls, name and set of modifiers", "why_tests_cant": "All histories of registration.", "anchors": ["src/comp.rs: CompMaker::do_push, do_add_alias, resolve_alias", "src/agg.rs: AggMaker", "src/matcher.rs: MatchMaker", "src/trans.rs: TransMaker", "src/textgen.rs: GenMaker"]}
{"id": "C110", "title": "Comparators from specifications", "statement": "A specification columns,words,pattern makes the comparator named by its last word that is no modifier, with the modifiers among the words in any order and any case, one column for each file and the last column for all further files; other names are errors.", "quantifier": "for every specification and number of files", "why_tests_cant": "All specifications and orders of words.", "anchors": ["src/comp.rs: CompMaker::make_comp, make_comp_parts, remake_comp, make_line_comp, make_line_comp_parts, remake_line_comp, LineCompCol::new, LineCompCol::lookup"]}
{"id": "C111", "title": "Modifiers of comparators of values", "statement": "A comparator of values made with rev answers the reverse of one made without, and one made with strict takes all texts that are not numbers as equal.", "quantifier": "for every specification and pair of values", "why_tests_cant": "All specifications and values.", "anchors": ["src/comp.rs: Comp::comp, CompMaker::make_comp, CompareNumeric, CompareFloat"]}
{"id": "C112", "title": "Lists of comparators of values", "statement": "A list of comparators answers with the first comparator that finds a difference, equality holds exactly if the comparison is equal, and comparing with a stored value is the same as comparing with the value.", "quantifier": "for every list of comparators, value, stored value and delimiter", "why_tests_cant": "All lists and values.", "anchors": ["src/comp.rs: CompList::comp, CompList::equal, CompList::set, CompList::comp_self"]}
{"id": "C113", "title": "Generated files", "statement": "filegen writes a header if asked for and exactly the lines and columns asked for, and what is read from the file is what the generators wrote for each line and column.", "quantifier": "for every sequence of options, every generator and every answer of the random generator", "why_tests_cant": "All options and random choices.", "anchors": ["src/bin/cdx/filegen_main.rs: main", "src/textgen.rs: GenList::push, GenList::write"]}
{"id": "C114", "title": "Texts of generators", "statement": "grid writes a different text for every cell, count counts up from its start as long as the numbers can be stored, and decimal writes exactly the numbers with the digits of its pattern.", "quantifier": "for every pattern, line, column and answer of the random generator", "why_tests_cant": "All patterns and random choices.", "anchors": ["src/textgen.rs: GenMaker::make, make2, DecimalGen, GridGen, CountGen"]}
{"id": "C115", "title": "Aggregation in uniq", "statement": "With aggregators, uniq writes for each run of adjacent equal lines one row: the aggregates of the run in the columns asked for, in place or new, and the other columns of the line asked for.", "quantifier": "for every file, key, list of aggregators and choice of line", "why_tests_cant": "All files and all combinations of aggregators.", "anchors": ["src/bin/cdx/uniq_main.rs: main", "src/agg.rs: LineAggList::fill, LineAggList::add, LineAggList::reset, AggCol, ExprAgg"]}
{"id": "C116", "title": "Header and count of uniq with aggregation", "statement": "The header has a name for each column of the rows in the same order, it is an error exactly if a name is wrong or not new, and a column asked for with --count has the number of lines of the run.", "quantifier": "for every header, list of aggregators and run", "why_tests_cant": "All headers and lists of aggregators.", "anchors": ["src/bin/cdx/uniq_main.rs: main", "src/agg.rs: LineAgger::add_names, LineAggList::push_first_prefix, push_append", "src/column.rs: Writer::add_names"]}
{"id": "C117", "title": "Texts of aggregators of lines", "statement": "A text place,name,column,aggregator makes the aggregator of the column for the new column at that place, and replace,column,aggregator the one in place of the column.", "quantifier": "for every text", "why_tests_cant": "All texts.", "anchors": ["src/agg.rs: LineAgger::new, new_prefix, new_append, new_replace, AggMaker::make_line, AggCol::new"]}
{"id": "C118", "title": "Text formats", "statement": "The text of a format sets header, delimiter, quoting, replacement and end of line, one character each in this order, and what is left out is the default; any other text is refused.", "quantifier": "for every text and every default", "why_tests_cant": "All texts, characters outside ASCII included.", "anchors": ["src/util.rs: TextFileMode::new_with, auto_escape, take_first"]}
{"id": "C119", "title": "Format of the output", "statement": "The format of the output is that of the input unless --text-out is given; then it is what its text says, the rest being that of the input.", "quantifier": "for every command line", "why_tests_cant": "All combinations and orders of options.", "anchors": ["src/bin/cdx/globals.rs: Settings::consume, text_out, text_out2", "src/bin/cdx/args.rs: parse"]}
{"id": "C120", "title": "Order of options", "statement": "A command sees the options of its own table in the order of the command line, each as often as given and with its value, and the files in order, or standard input if there are none.", "quantifier": "for every table with different names and every command line", "why_tests_cant": "All command lines.", "anchors": ["src/bin/cdx/args.rs: parse, get_arg"]}
{"id": "C121", "title": "Options are handled", "statement": "Every option a command declares is handled by its loop over options, so no accepted command line makes it panic there.", "quantifier": "for every command and every accepted command line", "why_tests_cant": "All command lines of all commands.", "anchors": ["src/bin/cdx/*_main.rs: main", "src/bin/cdx/args.rs: parse"]}
{"id": "C122", "title": "Commands and status", "statement": "The program runs the command named by the first argument on the remaining ones; it ends with status 0 exactly if that succeeds, ends early by request or finds its output closed, and reports an error only if that has not been done.", "quantifier": "for every list of arguments and every outcome", "why_tests_cant": "All arguments and outcomes.", "anchors": ["src/bin/cdx/main.rs: main, inner_main", "src/bin/cdx/cdxmain.rs: MAINLIST", "src/util.rs: suppress, silent"]}
{"id": "C123", "title": "Words of options", "statement": "The words for yes, no and maybe, for columns with equal names, for the end of paste and for missing newlines are accepted in any case, each with its meaning, and no others.", "quantifier": "for every text", "why_tests_cant": "All texts.", "anchors": ["src/util.rs: Tri::new", "src/column.rs: DupColHandling::new", "src/bin/cdx/paste_main.rs: EndMode::new", "src/bin/cdx/cat_main.rs: main"]}
{"id": "C124", "title": "Options of binsearch", "statement": "--context and --filename read back every text made from numbers and a name; the numbers are used for lines found and for none found as said, and more parts are refused.", "quantifier": "for every text", "why_tests_cant": "All numbers and names.", "anchors": ["src/bin/cdx/binsearch_main.rs: FileNameColumn::set, Context::set, do_set, Context::get"]}
{"id": "C125", "title": "Option --number of cat", "statement": "The text name,start,place of --number says all about the column of numbers; of several options only the last counts.", "quantifier": "for every list of options", "why_tests_cant": "All lists of options.", "anchors": ["src/bin/cdx/cat_main.rs: LineNumber::set"]}
{"id": "C126", "title": "Options of join", "statement": "--output reads back every list of files and columns from its text, and --also every number and name; no text makes them panic.", "quantifier": "for every text and list of files and columns", "why_tests_cant": "All texts.", "anchors": ["src/bin/cdx/join_main.rs: main"]}
{"id": "C127", "title": "Search of a sorted file from the command line", "statement": "binsearch on a file sorted by the key column writes the header and then exactly the lines that have the value in that column, in the order of the file.", "quantifier": "for every separator, list of names, sorted list of rows, column and value", "why_tests_cant": "All sorted files; tests use tabs and values greater than the header line.", "anchors": ["src/bin/cdx/binsearch_main.rs: main", "src/binsearch.rs: MemMap::new, equal_range_n", "src/comp.rs: comp_self_cols"]}
{"id": "C128", "title": "File name column of binsearch", "statement": "With --filename the output is a table with one more column before the others: its name in the header and the end of the path of the file on each line.", "quantifier": "for every separator, name, path, list of rows and value", "why_tests_cant": "All files and names; tests use tabs and a name.", "anchors": ["src/bin/cdx/binsearch_main.rs: main, FileNameColumn"]}
{"id": "C129", "title": "Headers of the files of binsearch", "statement": "If binsearch succeeds on many files all of them have the same header or none; the header is written once, then the lines found in each file in the order of the files.", "quantifier": "for every list of files, key and value", "why_tests_cant": "All lists of files, with and without headers.", "anchors": ["src/bin/cdx/binsearch_main.rs: main", "src/util.rs: HeaderChecker::check"]}
{"id": "C130", "title": "Composite columns", "statement": "A composite column given as texts and references to columns (by number or name, with or without braces, with a doubled ^ for a ^) is read as these pieces, and its value for a line is the pieces one after the other, escaped for the output.", "quantifier": "for every list of pieces, header, line and output mode", "why_tests_cant": "All sequences of texts, numbers and names, with what follows each of them.", "anchors": ["src/column.rs: CompositeColumn::set, lookup, write", "src/column.rs: NamedCol::parse"]}
{"id": "C131", "title": "Groups of columns", "statement": "A group writes the values of the selected columns with its delimiter between them, so that splitting at the delimiter gives the values back.", "quantifier": "for every header, selection, delimiter and line", "why_tests_cant": "All values, also with the delimiter in them.", "anchors": ["src/column.rs: ColumnClump::from_spec, write"]}
{"id": "C132", "title": "cut writes as many fields as names", "statement": "Every row that cut writes has as many fields as its header has names.", "quantifier": "for every list of options, header and line", "why_tests_cant": "All combinations of columns, groups, expressions and composites, and all values.", "anchors": ["src/bin/cdx/cut_main.rs: main", "src/column.rs: Writer::write, Writer::add_names"]}
{"id": "C133", "title": "Output of cut", "statement": "cut writes one header and then, for the lines of all files in order, the fields asked for, in the order asked for; tables in, tables out.", "quantifier": "for every list of options, list of files and text mode", "why_tests_cant": "All tables and selections; a test fixes both.", "anchors": ["src/bin/cdx/cut_main.rs: main", "src/column.rs: Writer::lookup, add_names, write"]}
{"id": "C134", "title": "Renaming columns", "statement": "A list of renames old.new is read as given; after that a column with the old name gets the new one, each rename is used once, and the text of the renames left over lists exactly these.", "quantifier": "for every list of renames and sequence of columns", "why_tests_cant": "All lists of renames and all orders of columns.", "anchors": ["src/column.rs: NameMap, ColumnHeader::rename, check_rename, push"]}
{"id": "C135", "title": "cut rejects columns that do not exist", "statement": "If a column, range or name asked for does not exist in one of the files, cut does not succeed.", "quantifier": "for every list of options and files", "why_tests_cant": "All headers, numbers and positions of the wrong option and the wrong file.", "anchors": ["src/bin/cdx/cut_main.rs: main", "src/column.rs: ColumnSet::lookup, CompositeColumn::lookup", "src/util.rs: HeaderChecker::check"]}
{"id": "C136", "title": "Sloppy selections", "statement": "select_sloppy gives a value for every selected column, the given default for one that does not exist; what write_sloppy and write3s write can be taken apart again; lookup_cols gives the numbers of the selection.", "quantifier": "for every selection and row", "why_tests_cant": "All rows shorter or longer than the selection needs.", "anchors": ["src/column.rs: ColumnSet::select_sloppy, write_sloppy, write3s, lookup_cols, lookup_cols_full"]}
{"id": "C137", "title": "The alternate sort is the same stable sort", "statement": "The hand written merge sort that the configuration alt_sort selects (do_sort_lines, sort_lines, sort_lines_temp, merge_lines) gives exactly the items the library's stable sort gives, in the same order, for any comparison that is an order and for the items and keys of the sorter, with and without unique.", "quantifier": "for every list of items and every comparison that is a total preorder on them", "why_tests_cant": "The two functions call each other on parts of two arrays of different sizes; every length splits differently.", "anchors": ["src/sort.rs: do_sort, do_sort_lines, sort_lines, sort_lines_temp, merge_lines"]}
{"id": "C138", "title": "The alternate sort never fails", "statement": "With any comparison at all, even one that is no order, the alternate sort ends, never indexes outside its arrays and gives a permutation of its items.", "quantifier": "for every list of items and every function of two items", "why_tests_cant": "Inconsistent comparisons are the ones that break sorts, and there are too many to try.", "anchors": ["src/sort.rs: do_sort_lines, sort_lines, sort_lines_temp, merge_lines"]}
{"id": "C139", "title": "The options of sort", "statement": "The keys are those of the --key options in their order, --unique, --merge and the configuration are set if and only if asked for, and the last --check or --Check says how many reports are made; --check with --merge is an error; --alt-sort changes nothing; --alt-merge changes nothing when sorted files are merged by whole lines.", "quantifier": "for every list of options and all files", "why_tests_cant": "All orders and repetitions of options, and any files.", "anchors": ["src/bin/cdx/sort_main.rs: main", "src/sort.rs: Sorter::new, merge, merge_t, merge_t1, merge_t2"]}
{"id": "C140", "title": "Sorting tables by columns", "statement": "sort of tables with the same header, with keys that name columns or number them, writes the header once and then the rows of all tables, stably sorted in the order of the keys; with --unique the first row of each class. A key that names a column that is not there is an error.", "quantifier": "for every header, every number of tables that fit into the buffer, all rows without NUL, and every list of column keys with methods that are orders whose first is not reversed text", "why_tests_cant": "Any rows, keys and numbers of files.", "anchors": ["src/bin/cdx/sort_main.rs: main", "src/sort.rs: sort, Sorter", "src/util.rs: make_header", "src/comp.rs: LineCompList::lookup, make_line_comp"]}
{"id": "C141", "title": "Formulas see the columns of a line", "statement": "A formula looked up in a header and evaluated on a line, split or not, has the value of its expression, where a name stands for the number in the first column of that name, and cN for column N if no column is named so; a name that is neither makes the lookup fail; a matcher made of it accepts the lines where the value is not zero.", "quantifier": "for every expression, every way to write it, every header and every line", "why_tests_cant": "Expressions nest without bound and headers may hold any names.", "anchors": ["src/expr.rs: Expr::lookup, prepare, prepare_line, eval, eval_line, find_var", "src/matcher.rs: ExprMatcher"]}
{"id": "C142", "title": "Formulas follow the header of each file", "statement": "A formula looked up again in another header means the columns of the new header; a comparator on several files uses for each file the columns of the header of that file.", "quantifier": "for every expression and every sequence of headers", "why_tests_cant": "It takes a second header with other positions for the same names, and any formula.", "anchors": ["src/expr.rs: Expr::lookup", "src/comp.rs: LineCompExpr::lookup, comp_lines"]}
{"id": "C143", "title": "Lists of columns in formulas", "statement": "Each list of columns in brackets is replaced by its columns in order, separated by commas, and nothing else is changed; this ends for every text; a bracket never closed and a list that cannot be looked up make the lookup fail; a function of one list is called with the numbers in these columns.", "quantifier": "for every text, every number of lists and every header", "why_tests_cant": "The loop searches its own output again, so whether it ends depends on all replacements made.", "anchors": ["src/expr.rs: Expr::lookup", "src/util.rs: find_close"]}
{"id": "C144", "title": "Aggregating by a formula", "statement": "Var,Init,Formula starts with Init, and each line makes the value that of the formula, with Var standing for the value so far even if a column has that name, and other names for the columns; after a reset the next group is as if it were the first.", "quantifier": "for every formula, initial value and sequence of lines and groups", "why_tests_cant": "The state lives in a variable of the formula across lines and groups.", "anchors": ["src/agg.rs: ExprAgg", "src/expr.rs: set_var, find_var, eval"]}
{"id": "C145", "title": "Generating by a formula", "statement": "Each place is written as the value of the formula with col and line standing for the place and any other name for zero, in the format given before the first comma if that is a format, whatever was written before.", "quantifier": "for every formula and every sequence of places", "why_tests_cant": "The formula is parsed again at each place with the variables of before.", "anchors": ["src/textgen.rs: ExprGen", "src/expr.rs: eval_plain, parse_fmt_expr"]}
{"id": "C146", "title": "The command calc", "statement": "For each line of each file, in order, calc writes one line with the value of its formula in the last format given, by a line so far or else by the last --fmt; a line that is no formula writes nothing.", "quantifier": "for all files whose lines are not only parentheses, and all options", "why_tests_cant": "Formats carry over from line to line and from file to file.", "anchors": ["src/bin/cdx/calc_main.rs: main", "src/expr.rs: calc, parse_fmt_expr"]}
{"id": "C147", "title": "Calc takes any line", "statement": "Whatever the lines of its files are, calc does not crash.", "quantifier": "for all files", "why_tests_cant": "Only a line without any operand shows it.", "anchors": ["src/bin/cdx/calc_main.rs: main", "src/expr.rs: do_eval, eval_plain"]}
{"id": "C148", "title": "Every constant can be used", "statement": "Each constant in the table of constants, written as a formula, has its value.", "quantifier": "for every constant and all arithmetic", "why_tests_cant": "Nobody writes a test for each constant.", "anchors": ["src/expr.rs: CONSTS, find_const", "src/tok2.rs: tokenize"]}
{"id": "C149", "title": "cgrep tells where each selected line is", "statement": "With location columns, cgrep puts in front of every selected line the place of that line: the number of the byte at which it starts in its file, the number of the line, or the last parts of the name of the file; the other lines are left out and the lines selected are those the patterns accept (or refuse, with --invert).", "quantifier": "for all files, patterns, location columns and settings without CSV decoding", "why_tests_cant": "Tests have one small file with the usual header; an offset is easily wrong for the second file, the last line without newline, or when the header is skipped.", "anchors": ["src/bin/cdx/cgrep_main.rs: main", "src/util.rs: FileLocList::write_data, FileLocItem::write_data, Reader::loc"]}
{"id": "C150", "title": "cgrep with locations writes a table", "statement": "From tables with the same header cgrep writes one table: the location columns followed by the columns of the input, with the selected rows of all files in order, every row having a field for every column.", "quantifier": "for all tables, separators, location columns and patterns", "why_tests_cant": "Tests use tabs; only the claim for all separators shows whether the fields that are added are separated like the rest.", "anchors": ["src/bin/cdx/cgrep_main.rs: main", "src/util.rs: FileLocList::write_names, FileLocList::add"]}
{"id": "C151", "title": "Texts of location columns", "statement": "Exactly bytes, line, name and name.N, in any case, are kinds of location, each with its meaning; a list separated by commas, each with a name for the column before a colon or without, adds exactly those columns in order, named bytes, line or filename if no name is given.", "quantifier": "for all texts and lists", "why_tests_cant": "The grammar has infinitely many texts, and which texts are refused is not tested at all.", "anchors": ["src/util.rs: FileLocItem::new, FileLoc::new, FileLocList::push"]}
{"id": "C152", "title": "Options of cgrep in any order", "statement": "The patterns of all --pattern options are used, in order, all of them needed unless there is --or somewhere among the options; the answer is turned round exactly if there is --invert somewhere; location columns of all --location options are added in order.", "quantifier": "for every list of these options", "why_tests_cant": "Tests have one or two options in one order.", "anchors": ["src/bin/cdx/cgrep_main.rs: main"]}
{"id": "C153", "title": "Several files fit the screen", "statement": "Showing several files together never fails and takes no more lines than the screen has, one being kept for the prompt.", "quantifier": "for all numbers and contents of files and all screen sizes", "why_tests_cant": "Tests run without a terminal and with two files at most.", "anchors": ["src/bin/cdx/tabs_main.rs: main, print_centered", "src/tabs.rs: Rect::from_screen, show2"]}
{"id": "C154", "title": "Shares of the screen", "statement": "Of several files each is shown as it would be alone on a screen of at least its share of the lines (what is left when titles and separating lines are taken off, divided by the number of files), its name above it and a line of dashes of its width below all but the last; a single file has the whole screen without a name.", "quantifier": "for all files, if the screen has three lines for each", "why_tests_cant": "Shares depend on how much earlier files use; no test has more than two files.", "anchors": ["src/bin/cdx/tabs_main.rs: main"]}
{"id": "C155", "title": "Nothing is cut off that would fit", "statement": "If all lines of all files, their names and the lines between them fit on the screen, all lines are shown.", "quantifier": "for all files and screen sizes", "why_tests_cant": "Needs files of different length; no test looks for lines that are missing.", "anchors": ["src/bin/cdx/tabs_main.rs: main"]}
{"id": "C156", "title": "Names above files", "statement": "When several files are shown, each has a line with its name in the middle.", "quantifier": "for all files, names and screen sizes", "why_tests_cant": "Tests have short names.", "anchors": ["src/bin/cdx/tabs_main.rs: print_centered"]}
{"id": "C157", "title": "Transposing some of the lines", "statement": "transpose --lines N gives what transposing the file that consists of the header and the first N lines gives; of several numbers the last counts, and --head counts wherever it is.", "quantifier": "for all files, N at least 1 and option lists", "why_tests_cant": "Tests have one small file.", "anchors": ["src/bin/cdx/transpose_main.rs: main", "src/transpose.rs: transpose"]}
{"id": "C158", "title": "Objects are read as a whole", "statement": "However an object of S3 is cut into pieces and whatever the sizes of the buffers, the bytes read are those of the object; if fetching a piece fails, an error is reported after the bytes before it.", "quantifier": "for all objects, pieces and buffer sizes", "why_tests_cant": "How the network cuts an object cannot be chosen in a test.", "anchors": ["src/util.rs: S3Reader::read"]}
{"id": "C159", "title": "Names of objects", "statement": "Exactly the texts s3://bucket/key, with no slash in the bucket, are accepted as names of objects, and mean that bucket and that key.", "quantifier": "for every text", "why_tests_cant": "All texts.", "anchors": ["src/util.rs: S3Reader::new_path"]}
{"id": "C160", "title": "Compressed objects are recognised", "statement": "An object that begins with the three bytes of a compressed file is decompressed, any other is read as it is, however it is cut into pieces.", "quantifier": "for all objects, pieces and buffer sizes", "why_tests_cant": "How the network cuts an object cannot be chosen in a test.", "anchors": ["src/util.rs: get_reader, S3Reader::read"]}
{"id": "C161", "title": "Test files mean what is written in them", "statement": "A test file made of any parts (command, inputs, expected outputs as text or as a matcher, status, input and output files, comments), with or without final newlines, is read as the last command, all inputs one after another, the last expected outputs and status, and all files in order with their exact contents.", "quantifier": "for all lists of parts whose texts have no line beginning with a hash, and statuses of 32 bits", "why_tests_cant": "A mistake in reading test files makes other tests pass or fail wrongly; tests use few forms of test files.", "anchors": ["src/tooltest.rs: Test::open, Test::add_outfile, grab"]}
{"id": "C162", "title": "A test passes exactly if all is as expected", "statement": "A test passes if and only if the exit status, both outputs and all output files are as expected, the input files are still there and no other file is left; the program finds exactly the given input files; with --tmp files left over do not count.", "quantifier": "for all tests, programs and directories", "why_tests_cant": "A test of the test runner can only show single tests that pass or fail.", "anchors": ["src/tooltest.rs: Test::run, nuke, delete_file"]}
{"id": "C163", "title": "Tests do not influence each other", "statement": "The result of a test is the same whatever tests ran before it.", "quantifier": "for all lists of tests and all programs", "why_tests_cant": "Depends on the order of tests and on what earlier ones left behind.", "anchors": ["src/tooltest.rs: Test::run, Config::run"]}
{"id": "C164", "title": "Counting of tests", "statement": "The report gives the number of tests, of those passed and of those failed (files that cannot be read included), and the command succeeds if and only if all passed.", "quantifier": "for all lists of test files", "why_tests_cant": "The suite is always expected to pass.", "anchors": ["src/tooltest.rs: Config::report, Config::run", "src/bin/cdx/tooltest_main.rs: main"]}
{"id": "C165", "title": "Words of the command", "statement": "The program gets exactly the words of the command, without white space, with the directory in place of every $TMP and the directory of programs before the first.", "quantifier": "for all commands and directories without white space", "why_tests_cant": "All commands in tests are written with single spaces.", "anchors": ["src/tooltest.rs: Test::run"]}
{"id": "C166", "title": "Makers can be looked up by many threads", "statement": "While any number of threads look for makers by name, in any order of their steps, each finds exactly the standard maker of that name.", "quantifier": "for all numbers of threads, programs of lookups and interleavings", "why_tests_cant": "Only certain interleavings go wrong; tests run with one thread or by luck.", "anchors": ["src/matcher.rs: MatchMaker::init, MatchMaker::remake", "src/comp.rs: CompMaker::init", "src/agg.rs: AggMaker::init", "src/trans.rs: TransMaker::init", "src/textgen.rs: GenMaker::init"]}
{"id": "C167", "title": "What a thread adds it finds", "statement": "A maker pushed by a thread under a name no other thread pushes is the one that thread finds under that name from then on.", "quantifier": "for all numbers of threads, programs of pushes and lookups, and interleavings", "why_tests_cant": "Depends on the interleaving of threads.", "anchors": ["src/matcher.rs: MatchMaker::push, MatchMaker::init", "src/comp.rs: CompMaker::push", "src/agg.rs: AggMaker::push"]}
{"id": "C168", "title": "No deadlock among the tables of makers", "statement": "Whatever calls threads make to the tables of makers, some thread that is not done can always go on, and at the end no lock is held.", "quantifier": "for all numbers of threads, programs of calls and interleavings", "why_tests_cant": "A deadlock needs a rare interleaving of threads.", "anchors": ["src/matcher.rs: MatchMaker", "src/comp.rs: CompMaker", "src/agg.rs: AggMaker", "src/trans.rs: TransMaker", "src/textgen.rs: GenMaker"]}
{"id": "C169", "title": "Equality with stored values", "statement": "A line is equal to stored values exactly if each of its key columns is equal to the value stored for it in the sense of its comparator, which is when the comparison with the stored values gives equal.", "quantifier": "for all comparators, lists of keys, values and lines", "why_tests_cant": "Each comparator has its own code for equality beside that for order; tests look at few pairs.", "anchors": ["src/comp.rs: Compare::equal_self, LineCompare::equal_self_line, LineCompList::equal_self_cols"]}
{"id": "C170", "title": "Items keep place, length and mark in their bits", "statement": "The item for a line of the buffer gives back that line and is not complete; marking it as complete or not changes nothing else.", "quantifier": "for all buffers, lines and marks", "why_tests_cant": "The bits of length and mark meet only for very long lines.", "anchors": ["src/comp.rs: Item::get, Item::size, Item::complete, Item::assign_complete", "src/sort.rs: Sorter::calc"]}
{"id": "C171", "title": "Comparing items compares their texts", "statement": "Items with keys filled in are equal exactly if their texts are, and are ordered as their texts.", "quantifier": "for all buffers and texts", "why_tests_cant": "The short cut by the key is right only in special cases; few texts in tests agree in their first 8 bytes.", "anchors": ["src/comp.rs: Item::equal, Item::compare, Item::compare2, ComparePlain::fill_cache"]}
{"id": "C172", "title": "Explanations of failed lines", "statement": "Matching with explanations gives the same answer as without, and writes something exactly if the line fails: with And one message for each failing test in order, with Or one message.", "quantifier": "for all lists of tests, combiners and lines", "why_tests_cant": "Messages on standard error are seldom tested.", "anchors": ["src/matcher.rs: LineMatch::ok_verbose, LineMatcherList::ok_verbose_and, LineMatcherList::ok_verbose_or"]}
{"id": "C173", "title": "Explanations of failed matches", "statement": "Matching a text with explanations writes something exactly if the match fails.", "quantifier": "for all matches, texts and both senses", "why_tests_cant": "No test looks at the messages.", "anchors": ["src/matcher.rs: Match::verbose_smatch, Match::verbose_umatch, MatcherList::verbose_smatch"]}
{"id": "C174", "title": "Clones of matchers", "statement": "A clone of a matcher gives the same answers as the original.", "quantifier": "for all matchers and texts", "why_tests_cant": "Clones are made in one place only.", "anchors": ["src/matcher.rs: Matcher::clone, MatchMaker::remake"]}
{"id": "C175", "title": "Copying a single file", "statement": "Copying writes everything that is read, in order, whatever the sizes of the reads; after an error what came before has been written.", "quantifier": "for all contents and sizes of reads", "why_tests_cant": "Small files arrive in a single read.", "anchors": ["src/util.rs: copy", "src/sort.rs: MergeConf::merge_t2"]}
{"id": "C176", "title": "Words for header modes", "statement": "A text means a header mode exactly if it is the word for it in any capitalisation; every other text is an error.", "quantifier": "for all texts", "why_tests_cant": "Tests use one spelling of each word.", "anchors": ["src/util.rs: HeaderMode::from_str"]}
{"id": "C177", "title": "A header is a string", "statement": "A file whose header line is not UTF-8 is an error in every mode that reads a header line; otherwise the header read is a string and the check changes nothing; reading a header never panics.", "quantifier": "for all files and text modes", "why_tests_cant": "Test files are ASCII.", "anchors": ["src/util.rs: TextFileMode::read_string, TextFileMode::read_header"]}
{"id": "C178", "title": "Columns of a header are strings", "statement": "Every column of a header can be had without panicking and is a string; the columns are those the header was made of.", "quantifier": "for all headers and delimiters", "why_tests_cant": "Tests use TAB and comma; a delimiter above 127 can cut a character.", "anchors": ["src/util.rs: StringLine::get, StringLine::vec, StringLine::split, TextFileMode::split_head"]}
{"id": "C179", "title": "Headers made up for files without one", "statement": "A header can be made up for every number of columns and delimiter, and is a string.", "quantifier": "for all numbers of columns and delimiters", "why_tests_cant": "Tests use ASCII delimiters.", "anchors": ["src/util.rs: StringLine::fake"]}
{"id": "C180", "title": "The name at the front of a text", "statement": "The length found is that of the longest front part that is a column name, in bytes, so that the text can be cut there; on ASCII it is the function on bytes.", "quantifier": "for all strings and classes of characters", "why_tests_cant": "The unit test has one non-ASCII name.", "anchors": ["src/column.rs: get_col_name, is_valid_column_name"]}
{"id": "C181", "title": "Names in headers", "statement": "The check of headers accepts exactly the names that the reader of column names takes as a whole; checking characters is the same as checking the bytes between delimiters.", "quantifier": "for all headers, modes and classes of characters", "why_tests_cant": "The two functions are tested apart, on a few names.", "anchors": ["src/util.rs: is_valid_cdx", "src/column.rs: get_col_name"]}
{"id": "C182", "title": "Tests with utf8 find the text they look for", "statement": "With utf8 the methods exact, prefix, suffix and infix find a text exactly where its bytes are, in every value, UTF-8 or not.", "quantifier": "for all texts and values", "why_tests_cant": "Tests have no values with bad bytes.", "anchors": ["src/matcher.rs: ColMatcher::ok, WholeMatcher::ok, ExactMatch::smatch, PrefixMatch::smatch, SuffixMatch::smatch, InfixMatch::smatch"]}
{"id": "C183", "title": "Parts of option texts are strings", "statement": "Splitting an option text at a one-byte character, after a number, at the closing bracket or before a transform gives strings.", "quantifier": "for all strings", "why_tests_cant": "Option texts in tests are ASCII.", "anchors": ["src/util.rs: find_close", "src/text.rs: to_usize", "src/column.rs: ColumnSet::find_trans"]}
{"id": "C184", "title": "Option texts are not cut inside a character", "statement": "No option text panics because it is cut inside a character: the operator of comp, the delimiters of merge, columns in round or square brackets.", "quantifier": "for all strings", "why_tests_cant": "Option texts in tests are ASCII.", "anchors": ["src/matcher.rs: CompMatcher::new, ColGroup::new_with, MatchMaker::make_line", "src/agg.rs: Merge::new", "src/column.rs: ColumnSet::range"]}
{"id": "C185", "title": "Decimal texts are read as the nearest double", "statement": "A text of digits with at most a point and a sign is read as the double nearest to the number it stands for, ties to even.", "quantifier": "for all such texts", "why_tests_cant": "Tests read a few short numbers, of which most come out right.", "anchors": ["src/text.rs: to_f64_lossy, to_f64", "src/num.rs"]}
{"id": "C186", "title": "The order of numbers read from texts", "statement": "When one decimal text stands for a smaller number than another, it is not read as a greater double.", "quantifier": "for all pairs of decimal texts", "why_tests_cant": "The texts that are exchanged have 17 digits or more.", "anchors": ["src/text.rs: to_f64", "src/comp.rs: CompareF64"]}
{"id": "C187", "title": "No text is read as NaN", "statement": "Whatever the text, the double read from it is a number or infinity, so that sorting is determined.", "quantifier": "for all texts, any powers of ten that are numbers", "why_tests_cant": "The texts in question have exponents above 308 or below -323.", "anchors": ["src/text.rs: to_f64"]}
{"id": "C188", "title": "Texts of the same number are read alike", "statement": "Two texts that stand for the same number are read as the same double, however they are written: leading and trailing zeros, exponent, suffix.", "quantifier": "for all pairs of texts", "why_tests_cant": "Tests compare a few pairs only.", "anchors": ["src/text.rs: to_f64"]}
{"id": "C189", "title": "Column sets can be tested with thresholds", "statement": "A column set written with a determiner that takes a threshold, such as atleast,2, is accepted and means that determiner: a whole number is a count of columns, a number with a point from 0 to 1 is a fraction of them.", "quantifier": "for all determiners, thresholds, column sets and matchers", "why_tests_cant": "Tests of the determiners call them directly; none writes one into an option.", "anchors": ["src/matcher.rs: ColSetMatcher::new", "src/matcher.rs: Determiner::new", "src/matcher.rs: Thresh::new"]}
{"id": "C190", "title": "The words of formulas, determiners and formats", "statement": "Exactly the documented words are functions, constants, determiners and number formats, each stands for its own meaning, and a function accepts exactly the documented number of arguments.", "quantifier": "for all texts and all argument lists", "why_tests_cant": "Tests use a few of the words; a word that hides another, or a wrong count of arguments, shows only with that word.", "anchors": ["src/expr.rs: FUNCS, CONSTS, min_args, max_args", "src/matcher.rs: Determiner::new", "src/num.rs: NumFormat::new"]}
{"id": "C191", "title": "Malformed option texts are errors, not panics", "statement": "No text given to an option makes the reader of the option panic: it is read, or refused with an error.", "quantifier": "for all texts and all readers of options", "why_tests_cant": "All texts; a text that panics may need a number of twenty digits.", "anchors": ["src/text.rs: to_usize_whole", "src/column.rs: NamedCol::parse, CompositeColumn::new", "src/matcher.rs: LengthMatch::new", "src/num.rs: NumFormat::new", "src/bin/cdx: option readers of each command"]}
{"id": "C192", "title": "Columns chosen by patterns", "statement": "A list of patterns like (prefix,x) chooses, pattern by pattern, the columns whose names the pattern accepts; not turns the answer round.", "quantifier": "for all patterns, all headers", "why_tests_cant": "All lists of patterns and headers; tests use single patterns without not.", "anchors": ["src/column.rs: ColumnSet::add, ColumnSet::range, ColumnSet::match_range", "src/matcher.rs: Matcher::smatch", "src/util.rs: find_close"]}
{"id": "C193", "title": "Sums and means of whole numbers", "statement": "The sum of a column does not depend on the order of its lines: it is the exact sum. The mean is the exact quotient, rounded once.", "quantifier": "for all columns of numbers, in every order", "why_tests_cant": "All columns of any length; whether roundings cancel depends on every value and on the order.", "anchors": ["src/agg.rs: Sum, Mean (Agg::add, value, result)", "src/text.rs: to_f64, to_f64_lossy"]}
{"id": "C194", "title": "Formulas of whole numbers are exact", "statement": "The value of a formula of whole numbers is the double nearest to its exact value.", "quantifier": "for all formulas, all values of their variables", "why_tests_cant": "All formulas, of any depth, and all numbers in them.", "anchors": ["src/expr.rs: apply_binary, apply_unary, apply_func, factorial, Expr::do_eval", "src/tok2.rs: tokenizer", "src/text.rs: to_f64"]}
{"id": "C195", "title": "The words of a matching method", "statement": "A matching method is the last of its words that is no modifier, regex if there is none. The modifiers among the words have their effect in any order and any case, and of and and or the last one counts.", "quantifier": "for all texts of methods", "why_tests_cant": "All texts of any number of words, in every order.", "anchors": ["src/matcher.rs: MatchMaker::make2, Matcher::default"]}
{"id": "C196", "title": "The texts of doubles", "statement": "A finite double without a precision is written with the fewest digits among the decimals of which it is the nearest double, and of these the nearest one to it; at most 17 digits. The plain form writes the same decimal as the form with an exponent. Infinities and NaN are inf, -inf and NaN.", "quantifier": "for all doubles", "why_tests_cant": "There are 2^64 doubles and for each of them all decimals with fewer digits to be ruled out.", "anchors": ["src/num.rs: NumFormat::print"]}
{"id": "C197", "title": "Doubles are read back", "statement": "A finite double printed in the plain format is read back as the same double.", "quantifier": "for all finite doubles", "why_tests_cant": "2^64 doubles; the error of reading adds up over the digits.", "anchors": ["src/num.rs: NumFormat::print", "src/text.rs: parse_f64"]}
{"id": "C198", "title": "Numbers printed with a precision", "statement": "A finite double printed with a precision N has N digits after the point and is the decimal of so many digits nearest to the double, of two the even one, in the plain format and in the one with an exponent, where there is one digit from 1 to 9 before the point unless the number is zero.", "quantifier": "for all finite doubles and all precisions", "why_tests_cant": "All doubles and unboundedly many precisions.", "anchors": ["src/num.rs: NumFormat::print"]}
{"id": "C199", "title": "The options of uniq", "statement": "Of the options of uniq the keys count in their order, the aggregators in their order, and the last --count and --which. --count is the name of the new column (count if there is none) and after a comma its place: begin, start, first or nothing, or end, stop, last, in any case. --which is first, last, min or max, in any case, and after a comma the comparator. Other words are errors. The command does what the options say in any other order.", "quantifier": "for all lists of options", "why_tests_cant": "All sequences of options of any length with all texts as values.", "anchors": ["src/bin/cdx/uniq_main.rs: main, Count::get_which, Count::get_which2, Count::get_count"]}
{"id": "C200", "title": "The options of verify", "statement": "Every declared option of verify is handled. Patterns and keys count in their order, --sort and --unique hold if given anywhere, --unique asks for order as well, and of --first and --last the last one counts. The command succeeds if and only if all files are as the options ask.", "quantifier": "for all lists of options and all files", "why_tests_cant": "All sequences of options of any length with all texts as values, with all files.", "anchors": ["src/bin/cdx/verify_main.rs: main"]}
{"id": "C201", "title": "The options of cat", "statement": "Exactly the options with known names and well formed values are accepted. Of --pad the last one counts, --number, --begin and --end change the numbering in their order, and a line is removed or left without a number if any one of the patterns given matches. Without options about numbers and lines the files are copied; with any of them the lines of all files that are not removed are written after one header.", "quantifier": "for all lists of options and all files", "why_tests_cant": "All sequences of options of any length with all texts as values, with all files.", "anchors": ["src/bin/cdx/cat_main.rs: main"]}
{"id": "C202", "title": "The options of wc", "statement": "Exactly the options with known names and well formed values are accepted. The aggregators are those of --agg, --lines, --bytes, --chars and --words in the order given, of --format, --total, --with-header and --file the last well formed value counts, and the order of different options does not matter otherwise. With --lines, --bytes and --words the counts of each file and their sums are written in the format asked for.", "quantifier": "for all lists of options and all files", "why_tests_cant": "All sequences of options of any length with all texts as values, with all files.", "anchors": ["src/bin/cdx/wc_main.rs: main"]}
{"id": "C203", "title": "The options of sample", "statement": "At most one of --range, --for and --sample may be given, and exactly the well formed values are accepted. The lines that option asks for are written after one header; without options as many lines as the screen is high are sampled from each file.", "quantifier": "for all lists of options and all files", "why_tests_cant": "All texts as values of the options, with all files and all heights of the screen.", "anchors": ["src/bin/cdx/sample_main.rs: main"]}
{"id": "C204", "title": "The options of paste", "statement": "Exactly the options with known names and well formed values are accepted. Of --end and --dups the last one counts, all --default and --rename count in their order. Files with headers are pasted under the header that renaming and treating duplicate names makes of their names, with values for missing lines taken from --default or --last; a rename that is not used is an error unless --rename-sloppy is given.", "quantifier": "for all lists of options and all files", "why_tests_cant": "All sequences of options of any length with all texts as values, with all files.", "anchors": ["src/bin/cdx/paste_main.rs: main"]}
{"id": "C205", "title": "The options of join", "statement": "Exactly the options with known names and well formed values are accepted. All --key, --output and --also count in the order given, of --file the last one, and the order of options of different names does not matter.", "quantifier": "for all lists of options", "why_tests_cant": "All sequences of options of any length with all texts as values.", "anchors": ["src/bin/cdx/join_main.rs: main"]}
{"id": "C206", "title": "Joining two tables", "statement": "For two tables with headers, keys given by names or numbers of columns with a method that compares as plain, lower, length or ip text and maybe reversed, the first table in the order of the keys and the second too and without repeated keys: join writes the header with the names of the columns shown and, for each row of the first table, the columns shown of it and the row of the second table with the same key. The columns shown are those of --output, or all of the first table and those of the second that are no keys. To the files of --also go the header and the rows without partner of that table, in order. Without --key the first columns are compared.", "quantifier": "for all tables, keys, output columns and lists of options", "why_tests_cant": "All tables of any size with all texts as values, and all lists of keys and output columns in all their texts.", "anchors": ["src/bin/cdx/join_main.rs: main", "src/join.rs: Joiner::join, join_quick", "src/comp.rs: make_line_comp, LineCompCol::lookup, comp_cols_n"]}
{"id": "C207", "title": "Sorting two tables, then joining them", "statement": "For two tables with headers in any order of rows, the keys of the second being distinct: cdx sort of each by its key columns, then cdx join of the two outputs, succeeds. What is joined, and what goes to the files of --also, are the rows that the relational join of the unsorted tables gives, as a permutation, and the first table appears in its stable sorted order.", "quantifier": "for all tables, keys, output columns, options of sort and join, buffer sizes and ways the files are read", "why_tests_cant": "All tables of any size with all texts as values; the property joins three runs of two commands.", "anchors": ["src/bin/cdx/sort_main.rs: main", "src/bin/cdx/join_main.rs: main", "src/sort.rs: Sorter", "src/join.rs: Joiner::join"]}
{"id": "C208", "title": "Counting the runs of a table", "statement": "For a table with a header, with --key by columns, uniq writes the first row of each run of rows with equal keys. With --count it adds a column with the given name at the given side, holding the number of rows in that run in decimal.", "quantifier": "for all tables, keys and options", "why_tests_cant": "All tables of any size with all texts as values, and all lists of keys in all their texts.", "anchors": ["src/bin/cdx/uniq_main.rs: main", "src/comp.rs: make_line_comp, LineCompCol"]}
{"id": "C209", "title": "Sorting tables, then making them unique", "statement": "For tables with the same header: cdx sort and then cdx uniq with the same keys writes one row for each key of the input, the first of the input with that key, in the order of the keys. The count is the number of rows in all inputs with that key. Without a count the output is that of cdx sort --unique.", "quantifier": "for all tables, keys, options, buffer sizes and ways the files are read", "why_tests_cant": "All tables of any size with all texts as values; the property joins runs of two commands.", "anchors": ["src/bin/cdx/sort_main.rs: main", "src/bin/cdx/uniq_main.rs: main", "src/sort.rs: Sorter"]}
{"id": "C210", "title": "Verifying tables by keys, and what sort writes", "statement": "verify of tables with the same header, with keys by columns and --sort or --unique: it ends without an error, and succeeds exactly if in each table every row is in order with every later one (strictly with --unique). What sort writes with these keys is accepted with --sort, what sort --unique writes is also accepted with --unique, and what sort writes without --unique is accepted with --unique exactly if no two rows of the input have the same key.", "quantifier": "for all tables, keys, options, buffer sizes and ways the files are read", "why_tests_cant": "All tables of any size with all texts as values; the property joins runs of two commands.", "anchors": ["src/bin/cdx/verify_main.rs: main", "src/bin/cdx/sort_main.rs: main", "src/comp.rs: make_line_comp, comp_check"]}
{"id": "C211", "title": "Pasting tables, and pasting what cut gives", "statement": "paste without options of tables with the same number of rows and no name of a column twice: the header names all columns in order, and row k is the rows k of the tables side by side. Columns that cut takes from the same tables in several runs, pasted in the order of the runs, are byte for byte what cut gives when asked for all of them in one run.", "quantifier": "for all lists of tables, and all ways of asking for columns in any number of runs", "why_tests_cant": "All tables of any size; the second part equates two programs of several runs each.", "anchors": ["src/bin/cdx/paste_main.rs: main", "src/bin/cdx/cut_main.rs: main"]}
{"id": "C212", "title": "Merging sorted tables, and sorting in parts", "statement": "sort --merge of tables with the same header, each sorted by the keys, gives the header and all rows stably sorted by the keys; with --unique the first row of each key. Tables sorted in any number of parts, whose outputs are then merged, give byte for byte what sorting all of them at once gives.", "quantifier": "for all tables, divisions into parts, keys, options, buffer sizes and heaps", "why_tests_cant": "All divisions of all tables; the property equates programs of several runs.", "anchors": ["src/bin/cdx/sort_main.rs: main", "src/sort.rs: merge_t1, merge_t2, merge", "src/comp.rs: lookup"]}
{"id": "C213", "title": "Searching what was sorted", "statement": "Tables sorted by keys, the first of which is a column compared byte by byte, can be searched for a value of this column: binsearch writes the header and exactly the rows with the value, in the order of the sort; with one key these are the rows with the value in the order of the tables.", "quantifier": "for all tables, columns, values, further keys, options of sort, buffer sizes and heaps", "why_tests_cant": "All tables and values; the property relates two programs, and the failing cases depend on what the header line says at the place of the column.", "anchors": ["src/bin/cdx/sort_main.rs: main", "src/bin/cdx/binsearch_main.rs: main", "src/binsearch.rs: equal_range_n"]}
{"id": "C214", "title": "Choosing rows of tables with cgrep, from the texts of its patterns", "statement": "From tables with the same header, cgrep writes the header and the rows that pass, in order: each --pattern 'column,method,text' tests the value of a column, given by name or number, by prefix, suffix, infix, equality or emptiness, with or without case (without case for texts that are not empty), or the opposite with the word not; all tests must pass, or one with --or; --invert takes the other rows.", "quantifier": "for all tables, separators, columns, patterns and combinations of options", "why_tests_cant": "All tables and pattern texts; tests try a few patterns.", "anchors": ["src/bin/cdx/cgrep_main.rs: main", "src/matcher.rs: MatchMaker::make, LineMatcherList::ok", "src/column.rs: NamedCol::new_from"]}
{"id": "C215", "title": "Choosing rows before or after other programs", "statement": "Choosing rows twice is choosing once with the patterns of both. The rows chosen and the rows chosen with --invert make up all rows. Choosing rows of a sorted table is sorting the rows chosen, byte for byte; with --unique this holds if the columns tested are keys compared byte by byte. Searching a table sorted by a column with binsearch, for a value greater than what the header line has at the place of the column, gives byte for byte what cgrep gives for the pattern 'column,exact,value'. (Tables sorted have values without zero bytes and fit in the buffer.)", "quantifier": "for all tables, patterns, keys and options", "why_tests_cant": "The property equates programs of several runs for all tables.", "anchors": ["src/bin/cdx/cgrep_main.rs: main", "src/bin/cdx/sort_main.rs: main", "src/bin/cdx/binsearch_main.rs: main"]}
{"id": "C216", "title": "Sorting twice", "statement": "For tables that fit in the buffer and have no zero bytes, sorting by keys bs and then the result by keys as is, byte for byte, sorting once by as followed by bs (without --unique). Sorting again by the same keys changes nothing, with --unique too.", "quantifier": "for all tables, keys, ways to compare, buffer sizes and heaps", "why_tests_cant": "All tables and pairs of key lists; stability shows only when keys are equal.", "anchors": ["src/bin/cdx/sort_main.rs: main", "src/sort.rs: Sorter::add, Sorter::merge_t", "src/comp.rs: CompList, LineCompList"]}
{"id": "C217", "title": "Cutting columns before or after sorting or choosing", "statement": "Cutting columns (lists, groups and composites) of tables sorted is sorting the tables cut, byte for byte, if the keys are among the columns that are cut under their own names; the same with --unique. Cutting columns of the rows chosen by cgrep is choosing rows of the tables cut, if the columns tested are among them. The tables, whole and cut, fit in the buffer and have no zero bytes, and the names written are valid and distinct.", "quantifier": "for all tables, columns, keys, patterns and options", "why_tests_cant": "The property equates two orders of two programs for all tables, keys and lists of columns.", "anchors": ["src/bin/cdx/cut_main.rs: main", "src/bin/cdx/sort_main.rs: main", "src/bin/cdx/cgrep_main.rs: main"]}
{"id": "C218", "title": "Where options stand on the command line", "statement": "A command does the same with two command lines that have the same options of its own in the same order, the same input files in the same order, and for each option that all commands know the same values in the same order: how these are interleaved does not matter.", "quantifier": "for all commands, command lines that clap accepts, files and states of the system", "why_tests_cant": "The interleavings of the words are exponentially many, for every command and every option.", "anchors": ["src/bin/cdx/args.rs: parse, ArgSpec, get_arg", "src/bin/cdx/main.rs: main", "src/bin/cdx/globals.rs: Settings::consume"]}
{"id": "C219", "title": "What a command changes", "statement": "Commands other than join and tooltest change no file and only add to the standard output; what they add, or that they fail or panic, is the same for any two states in which the files of the command line have the same contents. After join succeeds, every file but those that --file and --also name is as it was.", "quantifier": "for all commands, command lines, files and states of the system", "why_tests_cant": "That nothing else is changed is a statement about all other files.", "anchors": ["src/bin/cdx/main.rs: main", "src/bin/cdx/join_main.rs: main", "src/util.rs: get_writer, get_reader", "src/join.rs: Join::join"]}
{"id": "C220", "title": "Pipelines of commands", "statement": "For tables in files that fit in the buffer and have no zero bytes: `sort B files | sort A` writes what `sort A B files` writes; `sort A files | verify V` succeeds and writes nothing if verify is asked for the same keys in order (for no equal rows: if sort leaves them out, or exactly if there are none); `sort | cut` writes what `cut | sort` writes if the keys are columns kept; `sort | cgrep` writes what `cgrep | sort` writes; `sort A files | uniq U` with the same keys writes the first row of each key in order, with the number of rows that have it in the column asked for, and without such a column what `sort --unique` writes. The outputs are equal byte for byte, from the words of the command lines, with the options and files in any arrangement and no option that all commands know.", "quantifier": "for all tables, file names, keys, columns, patterns, arrangements of the words and states of the system", "why_tests_cant": "Two whole programs run one after the other are compared with two others on all tables and options.", "anchors": ["src/bin/cdx/main.rs: main", "src/bin/cdx/args.rs: parse", "src/bin/cdx/sort_main.rs: main", "src/bin/cdx/verify_main.rs: main", "src/bin/cdx/cut_main.rs: main", "src/bin/cdx/cgrep_main.rs: main", "src/bin/cdx/uniq_main.rs: main", "src/util.rs: get_reader"]}
{"id": "C221", "title": "Scripts of commands with files between them", "statement": "For tables in files, with no zero bytes in them and, where they are sorted, no more than fits in the buffer; commands write their output into new files with plain names. Columns cut apart into files by any number of cut commands, and these files pasted, are what one cut with all the options in order writes. Files sorted in parts by any number of sort commands with the same keys, and these merged by `sort --merge` with the keys by number, are what one sort of all the files writes. After `sort files > n` by one plain key, `binsearch` in n of a value greater than the key of the header line writes the header and exactly the rows with that value in that column, in the order of the input. After two files are sorted, `join` of the results writes a permutation of the joined rows of the unsorted tables to its output, and the lonely rows of each side to the files asked for.", "quantifier": "for all tables, file names, keys, columns, values, arrangements of the words and states of the system", "why_tests_cant": "Scripts of arbitrarily many commands are compared on all tables and options.", "anchors": ["src/bin/cdx/main.rs: main", "src/bin/cdx/args.rs: parse", "src/bin/cdx/cut_main.rs: main", "src/bin/cdx/paste_main.rs: main", "src/bin/cdx/sort_main.rs: main", "src/bin/cdx/binsearch_main.rs: main", "src/bin/cdx/join_main.rs: main", "src/util.rs: get_reader, get_writer"]}
{"id": "C222", "title": "Single commands from the command line, with text formats", "statement": "For any words that mean the options, the files and the text formats (the last `--text-in` and `--text-out` count), in any arrangement, each of these commands adds the stated bytes to the standard output, and changes nothing else. `cut` of tables with one separator writes the fields and composites asked for as a table with another, in which other separators within cells are blanks. `cgrep` with the same format in and out writes the header and the chosen rows. `cat` with no option but `--pad` writes the files that have lines in full, headers once, if each ends with a newline; with numbering, skips or removes it writes the renumbered rows. `wc` writes the counts, or the two counts in the output format. `calc` writes the values of the lines, if each line that can be read has something in it other than parentheses. `filegen`, `sample`, `tabs`, `transpose` and `uniq` write the tables C113, C203, C154, C157 and C208 describe. `sort` sorts the rows of tables that fit in the buffer, whatever the text formats. `sort --check` by whole lines or numbered columns, and `verify` by keys, write nothing and fail exactly when the lines are not in order. `paste` writes the pasted rows, and fails exactly when lengths must agree and do not. `binsearch` by one plain column in files in order by it writes the rows that have the value, with the file name if asked for, if the value is greater than what the header line has in the column; its options are read as keys in order, at most one `--filename`, and the last of the others.", "quantifier": "for all words, text formats, files and states of the system within these conditions", "why_tests_cant": "Arrangements of words, formats and contents of files are unbounded.", "anchors": ["src/bin/cdx/main.rs: main", "src/bin/cdx/args.rs: parse", "src/bin/cdx/cdxmain.rs: 27-44", "src/util.rs: TextFileMode::new, get_reader, get_writer", "src/bin/cdx/binsearch_main.rs: main", "src/bin/cdx/calc_main.rs: main", "src/bin/cdx/cat_main.rs: main", "src/bin/cdx/cut_main.rs: main", "src/bin/cdx/filegen_main.rs: main", "src/bin/cdx/paste_main.rs: main", "src/bin/cdx/sample_main.rs: main", "src/bin/cdx/sort_main.rs: main", "src/bin/cdx/tabs_main.rs: main", "src/bin/cdx/transpose_main.rs: main", "src/bin/cdx/uniq_main.rs: main", "src/bin/cdx/verify_main.rs: main", "src/bin/cdx/wc_main.rs: main"]}
{"id": "C223", "title": "cut applies the transforms asked for", "statement": "For all options `--fields COLS+T` and `--group DNAME:COLS+T` of cut (T a list of transforms joined by `+`, or none), all input and output text formats, header modes and files whose headers have the columns asked for: the output has for each file the header (if the header checker says so) and for each line a row with the chosen columns in order, each value being what the transforms of its option make, one after the other, of the value in the file. If a transform fails on a value, cut panics. The code violates this for options that only say which columns to leave out (`~b+upper`): their transform is silently ignored; proved for all options that also name a column to keep.", "quantifier": "all lists of options, transforms, text formats, header modes, files", "why_tests_cant": "The rows depend on the columns picked, the transforms and the quoting together; tests try a few transforms on a few rows.", "anchors": ["src/column.rs:758-819", "src/column.rs:965-993", "src/column.rs:1078-1106", "src/column.rs:1309-1312", "src/column.rs:1345-1348", "src/trans.rs:206-240", "src/bin/cdx/cut_main.rs:5-66"]}
{"id": "C224", "title": "Formulas of whole numbers are written exactly", "statement": "With every part of the program put together (the parser of formulas, the parser of numbers, the binary64 arithmetic, the printer of numbers, the text formats): for each line of the input of `calc` that is a formula of whole numbers, the line written is the exact value of the formula in the format asked for; and a column asked of `cut` by `--expr NAME:FORMULA` has, for each row of the tables, the exact value of the formula, with names standing for the columns. The conditions for this: every constant, cell and value inside the formula is a whole number up to 2^53 (divisions come out even), and the final value is not 0. The code violates it for 0: `calc` writes `-0` for `0*-1`.", "quantifier": "all formulas of whole numbers, all tables of whole numbers, all separators, all formats of numbers, all command lines, all states of the file system", "why_tests_cant": "The chain has six parts each with its own bounds; a test runs a few formulas on a few rows, and 0 with a minus sign is not among them.", "anchors": ["src/bin/cdx/calc_main.rs:5-45", "src/bin/cdx/cut_main.rs:5-66", "src/expr.rs:1-823", "src/column.rs:1078-1106", "src/num.rs:191-260", "src/util.rs:30-330"]}
{"id": "C225", "title": "cgrep with formulas", "statement": "With every part of the program put together: from tables with the same header, `cgrep` writes the header once and exactly the rows that pass, in order. The patterns may be tests of columns or `,expr,FORMULA` with a formula of whole numbers; a row passes a formula exactly if the exact value of the formula for the row, with names standing for the columns, is not 0. A row must pass all patterns, or one of them with `--or`; with `--invert` the other rows are written. Conditions: the constants, cells and values inside the formula are whole numbers up to 2^53, and there is at least one row.", "quantifier": "all command lines with such options, all tables of whole numbers in the columns used, all separators, all states of the file system", "why_tests_cant": "Whether a value is 0 depends on every rounding on the way; tests compare a few rows.", "anchors": ["src/bin/cdx/cgrep_main.rs:5-75", "src/matcher.rs:1930-2006", "src/matcher.rs:1228-1290", "src/expr.rs:1-823", "src/num.rs:106-114"]}
{"id": "C226", "title": "Sorting by numbers and formulas orders rows by their values", "statement": "For every set of tables of the same columns, every list of keys each of which is a column compared as text, as a number (numeric or float) or as an IP address, or a formula, in either direction, where columns compared as numbers hold whole numbers of at most 2^53 in size and the formulas have whole values of at most that size in all steps: `sort` writes the header and the rows of all tables ordered by the first key that tells them apart, where numbers and formulas compare as exact numbers; rows that compare equal keep their order, and with --unique exactly the first of them is written.", "quantifier": "for all tables, keys, formulas, command lines and environments", "why_tests_cant": "Tests sort a few tables by one or two keys; the claim ranges over all tables, all lists of keys and all formulas, and fails only where a cached 64-bit key differs from the comparison of the values (0 and -0).", "anchors": ["src/comp.rs:1834-1932", "src/comp.rs:1660-1700", "src/sort.rs:480-560", "src/bin/cdx/sort_main.rs:6-85"]}
{"id": "C227", "title": "Patterns that compare columns choose the rows of which the comparison holds", "statement": "For every pattern `COL,comp,OPCOLS` or `COL,comp,OPCOLS,METHOD` as the comments in the source write it (an operator `<`, `<=`, `>`, `>=`, `==`, `!=`, or its word followed by a dot; one column, a range, a complement, maybe in brackets; any method that is not random) and every set of tables of the same columns: `cgrep` writes the header and the rows in which the value of COL stands in the relation to the value of at least one of COLS, where texts compare by the method and whole numbers of at most 2^53 in size by value; several patterns are combined by --or and --invert.", "quantifier": "for all patterns of these forms, tables, command lines and environments", "why_tests_cant": "Tests compare one pair of columns; the claim covers every operator, every way to write columns, and every value, and fails for brackets and for operators followed by a dot.", "anchors": ["src/matcher.rs:901-1007", "src/matcher.rs:1902-1949", "src/util.rs:2041-2147", "src/util.rs:2389-2409"]}
{"id": "C228", "title": "uniq by numbers and formulas", "statement": "For every table with a header and at least one row, `uniq` with any list of keys that are columns (compared as texts, or as whole numbers written as digits with or without a minus, at most 2^53 in size and not -0) or formulas that have whole values of at most 2^53 in every row: the output is the first row of each run of adjacent rows on which all keys have equal values, in the order of the input, and with --count the number of rows in that run in a column with the given name at the given side. The texts of equal numbers may differ (007 and 7), and 0 and -0 as values of formulas are equal.", "quantifier": "for all tables, lists of keys, formulas, command lines and environments", "why_tests_cant": "Tests run a few keys on one small file; the claim covers all formulas and all numbers that doubles hold exactly.", "anchors": ["src/bin/cdx/uniq_main.rs: main", "src/comp.rs:1834-1932", "src/expr.rs: Expr::eval"]}
{"id": "C229", "title": "verify by numbers and formulas", "statement": "For every list of tables with the same header and at least one row among them, `verify` with keys that are columns (compared as texts, or as whole numbers written as digits with or without a minus, at most 2^53 in size and not -0) or formulas that have whole values of at most 2^53 in every row, and with --sort or --unique: the command succeeds without any output if in each table every row comes, by the exact values of the keys, before or beside every later one (strictly before with --unique), and otherwise it fails without a message of its own.", "quantifier": "for all tables, lists of keys, formulas, command lines and environments", "why_tests_cant": "Tests run a few keys on one small file; the claim covers all formulas and all numbers that doubles hold exactly, in tables of any size.", "anchors": ["src/bin/cdx/verify_main.rs: main", "src/comp.rs:1834-1932", "src/expr.rs: Expr::eval"]}
{"id": "C230", "title": "uniq with sums of groups", "statement": "For every table with a header and 1 to 2^53 rows, in the default text format, `uniq` with any non-empty list of keys that are columns (compared as texts, or as whole numbers written as digits with or without a minus, at most 2^53 in size and not -0) or formulas with whole values of at most 2^53, with at least one of --agg-pre and --agg-post `name,column,sum` in any number and order (the column given by its name, other than `expr`, or by its number; no comma in the new names), and with or without --count: if the names of all columns of the output are valid and different, and the columns to be added up hold whole numbers (also such as 1e3) whose sizes add up to at most 2^53, then the output has one row for each run of adjacent rows on which all keys have equal values. That row is the first one of the run, unchanged, with the exact sums of the run before and after it in the order of the options, and with the number of its rows first or last. Sums and numbers of rows are in the short format: in decimal from 1 to 999 in size, and otherwise as 1e3, unlike the counts that are written without aggregators.", "quantifier": "for all tables, keys, formulas, lists of sums, command lines and environments", "why_tests_cant": "Tests add up a column in one small file; the claim covers every grouping of tables of any size and shows that the sums of doubles are exact.", "anchors": ["src/bin/cdx/uniq_main.rs: main", "src/agg.rs:919-946", "src/comp.rs:1834-1932", "src/expr.rs: Expr::eval"]}
{"id": "C231", "title": "uniq with formulas that aggregate groups", "statement": "For every table with a header and 1 to 2^53 rows, in the default text format, `uniq` with any non-empty list of keys (columns compared as texts or as whole numbers, or formulas with whole values, as in C230), with at least one of --agg-pre and --agg-post in any number and order, each `name,column,sum` as in C230 or `name,expr,variable,start,formula`, and with or without --count, where the names of all columns of the output are valid and different: the output has one row for each run of adjacent rows on which all keys have equal values. That row is the first one of the run, unchanged, with the new columns before and after it in the order of the options. The new column of a formula holds, in the short format, the exact value that begins as the start and becomes, for each row of the run in order, the value of the formula, in which the variable stands for the value so far (even if a column has its name) and the other names for the columns of that row. This holds if the start and the cells are whole numbers, and if for every list of adjacent rows all steps are whole numbers of at most 2^53 in size and the last value is not 0 (0 may be written as -0, see C224). Each run begins again with the start.", "quantifier": "for all tables, keys, formulas, lists of new columns, command lines and environments", "why_tests_cant": "Tests run one formula on one small file; the claim covers every formula and every grouping, and that no group sees values of another.", "anchors": ["src/bin/cdx/uniq_main.rs: main", "src/agg.rs:179-236", "src/expr.rs: Expr::eval"]}
{"id": "C232", "title": "Totals of groups by sort and uniq", "statement": "For every list of files with the same header, with 1 to 2^53 rows together, the pipeline `cdx sort --key \u2026 files | cdx uniq --key \u2026 -` with the same non-empty list of keys (columns compared as texts or whole numbers, or formulas with whole values; the first as C226 asks), without --unique, and with at least one of --agg-pre and --agg-post of the form `name,column,sum` in the second command and with or without --count: the output has exactly one row for each value of the keys that occurs, wherever in the files the rows with that value stand, in the order of these values. That row is the first of these rows in the files, unchanged, with new columns that hold, in the short format, the exact sums over all rows with that value, and with their number. This holds if the files fit in the memory of sort, all cells of the columns that are added up are whole numbers, their sizes add up to at most 2^53 for each column, and the names of all columns of the output are valid and different.", "quantifier": "for all files, keys, lists of sums, command lines and environments", "why_tests_cant": "Tests look at one small file; the claim is about every way in which the rows of a group can be spread over files, and needs sort and uniq to agree on which rows are equal for every kind of key.", "anchors": ["src/bin/cdx/uniq_main.rs: main", "src/bin/cdx/sort_main.rs:6-85", "src/sort.rs:312-560", "src/agg.rs:179-236"]}
{"id": "C233", "title": "Counting rows by patterns", "statement": "For every list of files with the same header of valid and different names, in the default text format, and every list of patterns as in C225 (a column tested by a plain method, or a formula with whole values), with or without --or and --invert, the pipeline `cdx cgrep --pattern \u2026 files | cdx wc --lines --bytes -` writes the header ` CDX lines bytes` and one row with the number of rows of the files that the patterns choose, and the number of bytes of these rows with their separators and newlines, both in the short format. This holds if some row is chosen and the number of bytes is at most 2^53; the order of the words of both command lines does not matter.", "quantifier": "for all files, patterns, formulas, command lines and environments", "why_tests_cant": "Tests count the rows of one file; the claim needs that the header is not counted, that no chosen row is split or joined between the two programs, and that the count is printed right for every number.", "anchors": ["src/bin/cdx/cgrep_main.rs: main", "src/bin/cdx/wc_main.rs: main"]}
{"id": "C234", "title": "sort, uniq and verify agree on numbers and formulas", "statement": "For every list of files with the same header and at least one row, that fit in the memory of sort, and for every non-empty list of keys (columns compared as texts or whole numbers, or formulas with whole values; the first as C226 asks): `cdx sort --key \u2026 files | cdx uniq --key \u2026 -` writes the same bytes as `cdx sort --unique --key \u2026 files`, and `cdx sort --key \u2026 files | cdx verify --key \u2026 -` with the same keys succeeds and writes nothing, with --sort, with neither --sort nor --unique, and also with --unique if sort was given --unique.", "quantifier": "for all files, keys, formulas, command lines and environments", "why_tests_cant": "The three programs compare rows in three different ways (by cached keys, by whole lines, by two readers); tests can only compare them on samples.", "anchors": ["src/bin/cdx/sort_main.rs:6-85", "src/bin/cdx/uniq_main.rs: main", "src/bin/cdx/verify_main.rs: main"]}
{"id": "C235", "title": "How far the sum and the mean of a column are from the exact ones", "statement": "For every column of up to 2^52 texts that are read as finite doubles whose sizes add up to at most 2^1022, in whatever order: the sum aggregator gives a finite double, and it is off from the exact sum of those doubles by at most n / 2^52 times the sum of their sizes, where n is the number of texts. So two orders of the same texts give sums that differ by at most twice that. The mean of such a column, if it is not empty, is a finite double that is off from the exact mean by at most (n + 1) / 2^52 times the mean of the sizes, plus 2^-1074.", "quantifier": "for all columns, in every order", "why_tests_cant": "Which bits are lost depends on all values and their order; no sample of columns gives a bound for all.", "anchors": ["src/agg.rs: Sum, Mean (Agg::add, value, result)", "src/text.rs: to_f64, to_f64_lossy"]}
{"id": "C236", "title": "Sorting or making unique twice by numbers and formulas", "statement": "For every list of files with the same header and at least one row, that fit in the memory of sort, and for all non-empty lists J and K of keys (columns compared as texts or whole numbers, or formulas with whole values; the first of each list as C226 asks): `cdx sort K files | cdx sort J -` writes the same bytes as `cdx sort J K files`. And for every file with at least one row and every such list of keys `cdx uniq K file | cdx uniq K -` writes the same bytes as `cdx uniq K file`.", "quantifier": "for all files, keys, formulas, command lines and environments", "why_tests_cant": "That the second sort keeps the order of the first where its own keys do not tell, for all tables and all pairs of lists of keys, is beyond samples.", "anchors": ["src/bin/cdx/sort_main.rs:6-85", "src/bin/cdx/uniq_main.rs: main"]}
{"id": "C237", "title": "Files that cannot be opened", "statement": "A command other than cat and sample (which can end early at a file with no rows) that succeeds could open every file it was given; for binsearch, every file could be mapped.", "quantifier": "for all commands, command lines and file systems", "why_tests_cant": "Any one of any number of files can be missing, for each of the commands.", "anchors": ["src/util.rs: get_reader", "src/bin/cdx/binsearch_main.rs: main", "src/bin/cdx/cut_main.rs: main"]}
{"id": "C238", "title": "Sorting by a column of decimals", "statement": "For every non-empty list of files with the same header, that fit in the memory of sort, and a key that is one column compared as `float`, reversed or not, whose cells are all decimals (sign, at most 300 digits on each side of the point, no exponent, no suffix, and not minus zero): `cdx sort` gives each cell a number that is off by at most one part in 2^41, and writes the rows stably sorted by these numbers; with --unique, the first row of each number. Hence of any two rows of the output the earlier decimal exceeds the later one by at most (|a|+|b|)/2^41, and the other way round in reverse. If cells with different texts differ by more than that, the rows are sorted by the decimals themselves.", "quantifier": "for all files, columns, command lines and environments", "why_tests_cant": "Rounding can go either way at each of up to 600 digits, and the order is decided by cached keys, by merging of blocks and by comparing lines again; no sample covers that.", "anchors": ["src/comp.rs:897-899", "src/num.rs:118-125", "src/bin/cdx/sort_main.rs:6-85"]}
{"id": "C239", "title": "sort, uniq and verify agree on decimals", "statement": "There is one number for each text, off by at most one part in 2^41 for a decimal (as in C238), such that for every column of decimals compared as `float`, reversed or not: `cdx uniq` writes the first row of each run of adjacent rows with the same number, with the count asked for; and `cdx verify` succeeds if the rows of each file are in the order of these numbers (strictly, with --unique) and fails if not. Hence `cdx sort | cdx uniq` writes the same bytes as `cdx sort --unique`, and `cdx sort | cdx verify` succeeds, also with --unique on both, for every non-empty list of files that fits in the memory of sort.", "quantifier": "for all files, columns, command lines and environments", "why_tests_cant": "sort compares cached keys and lines, uniq and verify compare columns; that these three ways agree where rounding makes different decimals equal is not seen on samples.", "anchors": ["src/comp.rs:897-899", "src/bin/cdx/sort_main.rs:6-85", "src/bin/cdx/uniq_main.rs: main", "src/bin/cdx/verify_main.rs: main"]}
{"id": "C240", "title": "Words that are refused", "statement": "A first word that is none of the sixteen commands, help, --help, version and --version fails and writes nothing to the standard output, whatever follows it; and `cdx sort` with both --merge and --check or --Check, in any order and with any other options, keys (formulas too) and files, does not succeed.", "quantifier": "for all words, options, files and file systems", "why_tests_cant": "There is no end to the words, and options come in any number and order.", "anchors": ["src/bin/cdx/main.rs:51-82", "src/bin/cdx/cdxmain.rs:27-44", "src/bin/cdx/sort_main.rs:48-50"]}
{"id": "C241", "title": "Sorting or making unique twice by decimals", "statement": "For a column of decimals (as in C238) compared as `float`, reversed or not: for every non-empty list of files that fits in the memory of sort, `cdx sort files | cdx sort -` writes the same bytes as `cdx sort files`; and for every file `cdx uniq file | cdx uniq -` writes the same bytes as `cdx uniq file`.", "quantifier": "for all files, columns, command lines and environments", "why_tests_cant": "Cells whose numbers round to the same double must keep their order whatever their texts are; samples do not reach such pairs.", "anchors": ["src/comp.rs:897-899", "src/bin/cdx/sort_main.rs:6-85", "src/bin/cdx/uniq_main.rs: main"]}
{"id": "C242", "title": "Sorting by decimals and then by further keys", "statement": "For every non-empty list of files with the same header and at least one row, that fit in the memory of sort, a first key that is a column of decimals (as in C238) compared as `float`, reversed or not, and any further keys, each a column compared as text, a column of whole numbers of at most 2^53 in size (not written as minus zero) compared as a number, or a formula with whole values of at most that size in all steps (as in C226): `cdx sort` gives each cell of the first column a number that is off by at most one part in 2^41, and writes the rows stably sorted by these numbers and, where they are equal, by the further keys in turn; with --unique, the first row of each class remains. If cells of the first column with different texts differ by more than (|a|+|b|)/2^41, the rows are sorted by the decimals themselves and then by the further keys.", "quantifier": "for all files, keys, command lines and environments", "why_tests_cant": "The first key is compared through a cached number and the others by reading the lines again; only a proof covers every combination of kinds of keys and every rounding.", "anchors": ["src/comp.rs:897-899", "src/comp.rs:1337-1373", "src/bin/cdx/sort_main.rs:6-85"]}
{"id": "C243", "title": "sort, uniq and verify agree on decimals with further keys", "statement": "For a first key that is a column of decimals (as in C238) compared as `float`, reversed or not, and further keys as in C242, of tables with at least one row: there is one number for each text, at most one part in 2^41 off for decimals, such that `uniq` writes the first row of each run of adjacent rows with the same number and the same further keys, with the count asked for, and `verify` succeeds if the rows of each file are in the order of the numbers and then of the further keys (strictly with --unique), and fails if not. For every list of files that fits in the memory of sort, `cdx sort files | cdx uniq -` writes the bytes that `cdx sort --unique files` writes, and `cdx sort files | cdx verify --sort -` succeeds, as does `verify --unique` after `sort --unique`.", "quantifier": "for all files, keys, command lines and environments", "why_tests_cant": "sort compares the first key through a cached number and the rest by reading lines, uniq and verify compare decoded lines; that these agree for every combination of keys is not shown by samples.", "anchors": ["src/comp.rs:897-899", "src/comp.rs:1322-1373", "src/bin/cdx/sort_main.rs:6-85", "src/bin/cdx/uniq_main.rs: main", "src/bin/cdx/verify_main.rs: main"]}
{"id": "C244", "title": "Sorting by other keys first and by decimals last", "statement": "For every non-empty list of files with the same header and at least one row, that fit in the memory of sort, a column of decimals (as in C238) compared as `float`, reversed or not, and further keys as in C242 the first of which is a number, or a text without NUL that is not compared in reverse (unless by length), or a formula that is never 0: `cdx sort --key keys files | cdx sort --key column,float -` writes the bytes that `cdx sort --key column,float --key keys files` writes.", "quantifier": "for all files, keys, command lines and environments", "why_tests_cant": "Holds only as sort is stable wherever decimals are rounded to the same number and wherever blocks are merged; samples do not reach both.", "anchors": ["src/comp.rs:897-899", "src/comp.rs:1337-1373", "src/bin/cdx/sort_main.rs:6-85"]}
{"id": "C245", "title": "cat before sort changes nothing", "statement": "For every non-empty list of files that are tables with the same header: `cdx cat files` without options writes the header once and the rows of all files in their order. If there is at least one row and the tables fit in the memory of sort, `cdx cat files | cdx sort -` writes the bytes that `cdx sort files` writes, both with or both without --unique, by keys that are columns of texts, columns of whole numbers of at most 2^53 in size (not minus zero) or formulas with whole values of at most that size, under the conditions of C226_partial on the first key (a number; or a text without NUL not compared in reverse unless by length; or a formula that is never 0), and also by a column of decimals (as in C238) and any such further keys.", "quantifier": "for all files, keys, command lines and environments", "why_tests_cant": "sort reads several files in blocks and sorts items that point into them, while cat copies bytes; that file borders never matter is a claim about all ways to cut a table into files.", "anchors": ["src/bin/cdx/cat_main.rs: main", "src/bin/cdx/sort_main.rs:6-85", "src/sort.rs: Sorter"]}
{"id": "C246", "title": "Choosing rows before or after sorting by numbers", "statement": "For every list of files that are tables with the same header and fit in the memory of sort, keys of sort as in C226_partial or a column of decimals (as in C238) with further keys as in C242, without --unique, file names that do not end in a slash, and patterns of cgrep that test columns or are formulas as in C225, joined by and or by --or, with or without --invert, that choose at least one row: `cdx sort files | cdx cgrep -` writes the bytes that `cdx cgrep files | cdx sort -` writes.", "quantifier": "for all files, keys, patterns, command lines and environments", "why_tests_cant": "The two ways sort different sets of rows; that the rows left out never change the order of the others needs stability for every table and every rounding.", "anchors": ["src/bin/cdx/sort_main.rs:6-85", "src/bin/cdx/cgrep_main.rs: main", "src/comp.rs:897-899"]}
