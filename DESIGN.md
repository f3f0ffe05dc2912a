# Design of the cdx model and proofs

Subject: `avjewe/cdx` (Rust), read as text in `/repo`. Nothing was built or run. The Lean project in `/verif/lean` models the code
function by function and proves the properties of `properties.jsonl` about that model.

## Layout

* `Verif/Model/*.lean`: definitions only. Each definition cites the file and lines it models and states every simplification.
* `Verif/Spec/*.lean`: small independent specifications (no use of model helpers).
* `Verif/Lemmas/*.lean`: helper lemmas.
* `Verif/Props/*.lean`: the property theorems named in `MANIFEST.json`, with non-vacuity examples.
* `seeded/LOG.jsonl`: mutation experiments (model edited like a realistic bug, rebuilt in a scratch copy outside `/verif`).
  `breaks` is the claim the edit was expected to break, as a rule written down before the run and not corrected afterwards: in about one entry of
  five the first theorem to fail belongs to another claim. `theorems_failed` lists what failed in the first modules that did not build, not everything
  that would fail; a failed proof alone does not show that its statement became false. An empty list means that the edit survived; then either
  `theorems_tightened` names what was added, or a later entry repeats the edit, or no claim speaks of it.

## Conventions

* Bytes are `UInt8`, buffers are `List UInt8` (`Bytes`).
* `usize`/`u32` counters and offsets are `Nat` unless the property is about wrap-around. (So: lines are shorter than 2^32 bytes,
  counters do not overflow.)
* A panic (index out of range, `unwrap` on error, overflow or subtraction below zero in a debug build) is an explicit value: `none`,
  or `panic` in `Res` (`ok`, `err`, `panic`). It is never a totalised default, unless the definition's comment says that the branch is
  unreachable and why.
* Loops are structural recursion, folds, or carry an explicit fuel argument; where fuel is used a theorem says which fuel is enough,
  or (when the code really can loop for ever) that none is.
* Comparators, matchers and translations supplied by the user are parameters; the hypotheses put on them are explicit and
  instantiated by a concrete comparator in an `example`.
* I/O: a file is its list of bytes; a writer is the list of bytes written. Read errors, the contents of gzip and S3, `mmap`, locale and
  terminal are not modelled.
* Floating point: `Model/Float` has the arithmetic of doubles bit by bit, as IEEE 754 defines it (C26, C32, C43, C69, C185 and on). Older
  models have exact rationals (C43, C106), integers (C32, C100) or an abstract type (C37, C46), as said at each property; theorems
  named `_doubles` carry them over. `Model/FloatOps` is the same for formulas
  and aggregators (C74, C193, C194). `Model/FloatText` has the texts of doubles: what `core::fmt` promises (shortest and nearest digits, or
  half to even with a precision) is modelled, not how it finds them (C196, C198). Not modelled: `libm` (`exp10`, `powf`, the transcendental functions of formulas), payloads of NaN.
* Names are unique across modules; everything is in `namespace Cdx`.

## When the code violates a property

The property stays as a user would state it. The model follows the code, `Cnn_statement` states the property in full, a theorem
`Cnn_refuted` proves the negation with a concrete witness, theorems ending in `_partial` prove the strongest part that holds, and
`MANIFEST.json` gives status `partial`. Where a property is `partial` because of a restriction of the model and not of the code, the
note says so.

## Properties

The notes are those of `MANIFEST.json`. The files are below `lean/Verif/`.

* **C01 Binary search returns exactly the matching lines** (partial; Props/Binsearch). exact whenever the search returns; it does not return when the value is less than an empty line that is the whole remaining range (proved)
* **C02 Binary search terminates** (partial; Props/Binsearch). terminates for every comparator unless the value is less than the empty slice and the buffer has an empty line; there it can loop for ever (proved)
* **C03 Stepping backwards and forwards by lines are inverse** (partial; Props/Binsearch). stepping back from the end of a buffer without a final newline panics (proved); everything else holds
* **C04 Plain splitting inverts joining** (proved; Props/TextLine). plain mode, all delimiters and lines
* **C05 Whole-line split and single-column extraction agree** (proved; Props/TextLine). 
* **C06 Backslash mode round trip** (proved; Props/TextLine). second theorem shows the side condition on the delimiter is needed
* **C07 A written row is one physical line** (proved; Props/TextLine). 
* **C08 Quote mode round trip** (partial; Props/TextLine). the full statement is false of the code and its negation is proved; the round trip holds under the stated restriction
* **C09 Reading by lines loses nothing** (proved; Props/Reader). 
* **C10 Reader lookback window** (proved; Props/Reader). 
* **C11 Reader location counts** (partial; Props/Reader). false of the code for open(), for backslash mode and for header mode Skip (proved); exact for new_open in plain mode
* **C12 Header policy over a sequence of files** (partial; Props/Header). the documented policy holds except in the characterised situations, where the code provably departs from it
* **C13 Glob matching is exact** (partial; Props/Glob). false of the code (proved): f.txt is not matched by *.txt, and a against *b panics; exact for patterns without a star or with one star at the end
* **C14 A glob match is never wrong** (proved; Props/Glob). 
* **C15 Bracket matching** (proved; Props/Text). 
* **C16 Literal escape decoding** (proved; Props/TextLine). 
* **C17 Trailing newline removal** (proved; Props/TextLine). 
* **C18 Column selection semantics** (partial; Props/Column, Props/Details). Exact for every header and every sequence of lists of selections as long as no number exceeds the header and no +0 occurs. Those two forms the code accepts and resolves to columns that do not exist (C18_exceptions), so the full claim is refuted. Matcher ranges (…) and header names that are not plain names are outside the theorem. C18_single is the same for one column.
* **C19 Inverted ranges, zero and out-of-range columns are rejected** (partial; Props/Column). Proved for inverted ranges, unknown names, column 0 and counts from the end that are too large, whatever the other items are. Refuted for numbers beyond the header and for +0.
* **C20 Output column names are unique** (partial; Props/ColumnOut). Uniqueness proved for all sequences, including renames. Loss of columns is excluded up to 10000 columns; beyond, the code drops a column silently (C20_lost, C20_refuted).
* **C21 Cutting columns reorders faithfully** (proved; Props/ColumnOut). All writers (write, write2, write3, Writer). C21_empty_writer records that a writer without columns adds an empty column.
* **C22 Comparators are total preorders** (partial; Props/Comp). Plain, caseless, length, IP, equal and their reversals for all texts; float when nothing converts to a NaN. Refuted for the numeric method (not transitive). Also: equality agrees with comparison, stored values compare like the value. The random method is not modelled.
* **C23 Numeric comparison orders digit strings by value** (partial; Props/CompNum). Exact for all integers with any digits, leading zeros, commas, blanks and minus, except a negative against a non-negative zero, which the code orders. A plus sign is not understood (C23_plus).
* **C24 Numeric comparison is a consistent ordering** (partial; Props/CompNum). Refuted: 1 equals 1.5 and 1.7. Reflexive and antisymmetric on all texts; on numbers with a decimal point it is a total preorder by sign, value and fraction digits that agrees with the values.
* **C25 Cached and direct comparison agree** (partial; Props/CompCache, Props/Details). Refuted in several ways: NUL bytes, reverse applied twice on fallback, numeric keys, whole-line length and float keys taken from the whole buffer. Proved for the remaining cases per method. Split and unsplit lines get the same keys (C25_split).
* **C26 Floating-point sort keys preserve order** (partial; Props/Comp). Exact for all pairs except 0 against -0, which are equal but have different keys.
* **C27 Multi-key comparison is lexicographic** (proved; Props/Comp). For all lists of comparators, files and lines, including stored values (set, comp_self_line).
* **C28 Sort outputs a sorted stable permutation** (partial; Props/Sort). In memory: exactly the stable sort, and with unique exactly the first line of each class. When the limit forces temporary runs: a sorted permutation (one line of each class with unique), for every way of reading and every heap; the order of equal lines is refuted. Keys as in GoodKeys (those for which C22 and C25 hold), lines without NUL, spilled data lines not starting with ' CDX'.
* **C29 Merging sorted files** (partial; Props/Merge). The tree merge is the stable merge for any number of files, with unique the first of each class. The heap merge (the default) gives a sorted permutation that keeps the order inside each file, one per class with unique; ties between files are refuted.
* **C30 Memory-limited sort equals in-memory sort** (partial; Props/Sort). Any two limits give the same header, the same lines up to order and the same keys in every position; for the whole-line key the same output. Refuted: ties, the line kept by unique, a run starting with a ' CDX' line loses it, a later file whose first line does not fit is an error, a line longer than the buffer panics.
* **C31 Join emits exactly the matching pairs** (proved; Props/Join, Props/Tighten). For all contents, keys, output columns and --also options, on the actual output bytes; the comparison must be an ordering on the lines that occur (C31_preorder: all methods, with whole numbers for numeric and no NaN). With repeated keys in file 2 the first line with the key is used.
* **C32 Smooth sampling** (partial; Props/FloatSampler, Props/Sampler). Proved with exact floating point rounding for sample sizes 3 to 2^24 (exactly min(n, lines) lines). A sample of 2 lines panics on the third line: refuted. The integer arithmetic is proved equal to that of doubles bit by bit.
* **C33 Screen fitting keeps and never widens columns** (proved; Props/Tabs). The requirements determine the result uniquely (C33_unique); a screen narrower than the number of columns panics (C33_narrow).
* **C34 Transposition** (partial; Props/Transpose). On file contents. A file with a header only yields an extra line of empty fields: refuted for such files; proved for all others.
* **C35 Accepted formulas always evaluate** (partial; Props/Expr, Props/MethodWords). Refuted for formulas of nothing but parentheses, such as () or the empty text: accepted, and evaluation panics. Proved for all others, from the text on, whatever the floating point operations compute.
* **C36 Operator precedence and associativity** (partial; Props/Expr). Proved for token lists in full, with the fewest or with more parentheses. From the text on it is refuted: abs(-3), 5!-3 and 5!==3 are rejected; proved when no sign follows the parenthesis of a call and no plus, minus or equality a factorial.
* **C37 Constant folding preserves meaning** (proved; Props/Expr). For every postfix token list, all values of variables, any floating point operations; C37_value carries it to the value of the expression written.
* **C38 Size suffixes** (partial; Props/Text). the integer tables use exclusive or for powers (proved wrong for all but K and k); the floating point tables are right
* **C39 Unsigned integer parsing** (proved; Props/Text). overflow is a panic as in a debug build
* **C40 Comparison operators** (proved; Props/Ops, Props/OpsMake). All operators, all orderings; also the names and symbols they are read from.
* **C41 'line OP value' selects the lines the user asked for** (partial; Props/Ops, Props/OpsMake). Refuted: CheckLine::line_ok tests the value against the line, so LT selects the greater lines; the verbose form ignores the second bound; the second value is lost when set. Proved: the verbose form with one bound, the equality operators in both, and CheckBuff (the range method of matchers) in full.
* **C42 Deciding early never changes a count-based match** (proved; Props/Details, Props/Ops). Every determiner, every sequence of answers, every running count. C42_line is the same for lines.
* **C43 Fractional match thresholds** (partial; Props/FloatThresh, Props/Ops). Refuted: with fractions, at least and at most are exchanged (C43_swapped). Proved for all determiners about counts, and exactly with fractions. With quotients rounded to doubles the answers are the same, unless the fraction is the rounded limit but not the exact one (C43_doubles_limit).
* **C44 Common prefix and suffix aggregation** (proved; Props/Agg). For every non-empty sequence of values, in both directions (common, and longest).
* **C45 Minimum and maximum aggregation** (partial; Props/Agg). Refuted: max starts from the empty text, so the numeric maximum of -1 and -2 is nothing. min is proved in full; max if some value is greater than the empty text, and always for plain comparison. Values are those on which the comparator is an ordering (KeyOk).
* **C46 Merge aggregation** (partial; Props/AggMerge). Refuted: an empty part (or a newline) at the very end is lost, max_parts:0 prints a part, count ignores the limits. Proved: what is printed, exactly, for all values and options; the full claim outside these cases.
* **C47 Arithmetic mean** (partial; Props/Agg). Refuted: amean prints the sum. The value it gives to other code is the mean.
* **C48 Whitespace normalisation** (partial; Props/Trans). Refuted: a leading blank puts a space after the first character of the first word (' ab' becomes 'a b'). Proved: the exact result for every value, right without leading blanks; idempotence in full.
* **C49 Translation pipelines compose left to right** (partial; Props/Trans). Refuted for the empty list, which gives its old buffer; proved for every other list, and no specification makes an empty list.
* **C50 Copying a line copies what is written** (partial; Props/TextLine). the full statement is false of the code in backslash and quote mode (negation proved); holds in plain mode
* **C51 uniq keeps one line per group of adjacent equal lines** (partial; Props/Uniq). Refuted: with a whole-line key the lines are not split, so --which min,col compares the columns of the first line; in quote mode a line not split is written as an older one. Proved in plain mode when the key makes the reader split or --which does not compare columns. --agg is not in this model.
* **C52 cat outputs all lines of all files** (partial; Props/Cat). Refuted: whether the file ended with a newline is taken from its first line, so a file of two lines without final newline is joined to the next one. Proved for files that end with a newline or have one line.
* **C53 verify reports every bad line** (partial; Props/Verify, Props/VerifyMain). Refuted: failures of the last line of a file (number of columns, patterns) are not counted. C53_exact_partial says exactly what is checked: columns and patterns of all lines but the last, the order of all lines, and the first and last line checks. C53_verify_partial: the full statement if the last line is good. C53_count: exactly how many failures are counted, up to five.
* **C54 Order check agrees with sortedness** (partial; Props/Verify). Refuted: sort --check does not look up named keys, so a named key compares the first column. Proved for keys given by number or whole lines, any number of files and any report limit above zero.
* **C55 paste pads and stops as asked** (partial; Props/Paste). Refuted: --last with a file that has only a header panics; in quote mode the last character of each line is lost. Proved in plain mode with newline ends for any number of files with headers (distinct valid names), or with the first file headerless; --last late needs a data line in each file.
* **C56 cgrep partitions the input** (proved; Props/Cgrep). Any matchers, any number of files, any header mode, in the default text mode; --location is not modelled.
* **C57 Combining matchers** (proved; Props/Match, Props/MethodWords). Lists of any length; tests that fail or panic are covered by C57_all.
* **C58 Matcher modifiers** (partial; Props/Match). Refuted: not is ignored except when lines are matched (C58_not_ignored), and null sets the flag of not (C58_null_inverts). Proved: for lines, not inverts the decision of every matcher.
* **C59 sample line ranges** (partial; Props/Sample). Refuted: lines are counted from 0 although the default and the help text say 1; a file with only a header ends the command; in quote mode old lines are written. C59_range_partial: in plain mode, no file with only a header, exactly the lines in the ranges counted from 0, for any number of files.
* **C60 wc counts** (partial; Props/Wc). Refuted: an empty file gets no row, and a missing newline at the end is counted. C60_counts_partial: lines, bytes, words and totals are right if every file ends in a newline (files without header, exact sums). C60_rows: the whole output for any aggregators and options in plain mode.
* **C61 Overwriting an output file** (partial; Props/Files). Refuted: the file is opened without truncation, so the tail of a longer old content stays. Partial: exact content after any writes, and it is right if and only if the old content was not longer.
* **C62 Head and tail of a delimited value** (proved; Props/Parts). 
* **C63 Prefix and suffix matching, case-blind** (partial; Props/Parts). an empty case-blind suffix pattern panics (proved); everything else is exact
* **C64 Selecting byte ranges of a value** (partial; Props/Parts). positions of 2^32 and above wrap around (proved); exact below
* **C65 Lines pass through unchanged** (partial; Props/Reader). false of the code in backslash mode (proved); holds in plain mode
* **C66 Unmatched output of a join is part of the input** (partial; Props/Join). Holds for files with a header and empty files. A file without header gets a made-up first line 'c1\tc2...' in its unmatched output: refuted.
* **C67 Join rejects unsorted input** (partial; Props/Join). No check is made: unsorted input is accepted (refuted). Proved for any order of lines: each line of file 1 goes to exactly one output, in order, rows only join lines with equal keys, and no line of file 2 is lost.
* **C68 Join of more than two files** (partial; Props/Join). Files after the second are never advanced: rows are those of the first two files, and columns of a further file are those of its first line, whatever its key (refuted).
* **C69 Smooth samples are even** (proved; Props/FloatSampler, Props/Sampler). For sample sizes 3 to 2^24, with exact floating point rounding; the bound is attained (example).
* **C70 A table on the screen** (partial; Props/Tabs). For files whose lines have at most as many columns as the header; a longer line panics (C70_ragged). Widths and truncation of characters are parameters with the contract GlyphsOk, met by ASCII text (asciiGlyphs_ok).
* **C71 Only formulas are accepted** (partial; Props/Expr). (2)(3)+ is accepted: refuted. If operands and operators alternate, exactly the formulas of the grammar are accepted.
* **C72 Columns in formulas** (partial; Props/Expr). Refuted when a column has a name like c1; proved otherwise. Finding the brackets and resolving the column set are covered by the column set theorems, not joined here.
* **C73 Functions compute what they are called** (partial; Props/Expr, Props/OtherNames). acos computes the absolute value: refuted. All other functions proved.
* **C74 Factorials** (partial; Props/Exact, Props/Expr). 0! is 0: refuted. Proved for all positive whole numbers; the literals count with their decimal values. With doubles: the nearest double up to 27, off by at most 6 units in the last place up to 170, infinity above; 28! is not the nearest double.
* **C75 Range specifications mean the operators written** (partial; Props/MethodWords, Props/Ops, Props/OpsMake). Refuted for RangeSpec::new: <=a is read as less than '=a'. Proved for the other operators, for names, and for new_trail in full.
* **C76 Matching methods accept what they are named for** (partial; Props/Details, Props/MethodWords, Props/Methods, Props/OtherNames). Refuted: case-blind suffix with an empty pattern panics; comment, hash and slash accept blank values; exact.utf8.case,A rejects A. Proved: all plain methods, the case-blind ones on bytes with non-empty patterns, length, numbers, and glob as far as C13 goes. User regular expressions are not modelled. The utf8 methods are proved for values that are strings; other values are errors, or not accepted.
* **C77 Number-like methods** (proved; Props/Regex). The four built-in regular expressions, with a matcher by derivatives proved equal to their language.
* **C78 Matching against the lines of a file** (partial; Props/Methods, Props/OtherNames). Refuted: empty lines are not accepted (nor a header line). Proved for non-empty lines, with and without case.
* **C79 Multi-patterns** (partial; Props/MatchSpec). Refuted: an empty pattern panics. Proved for every other pattern, method and value.
* **C80 Line matcher specifications** (partial; Props/MatchSpec). Refuted: the column-set form tests the one column called like the determiner (C80_set_lost); with backslash quoting the last character of a whole line is not seen. Proved: the column and whole-line forms.
* **C81 Base64 is exact** (proved; Props/Trans). Base64 is modelled after RFC 4648 with required padding, as the STANDARD engine of the crate.
* **C82 Names of transforms** (partial; Props/Trans). Refuted: the first transform of a program cannot use lowercase or uppercase, because the aliases are looked up before the table is filled. Proved otherwise.
* **C83 Cloning a transform** (proved; Props/Trans). Library users' own transforms are not modelled.
* **C84 Case transforms** (proved; Props/Trans). ASCII versions only; the Unicode versions depend on std's tables.
* **C85 Counting words** (proved; Props/Agg). The loop is proved for any characters, which covers the Unicode versions up to std's tables.
* **C86 Sums, counts and extremes** (proved; Props/Agg). Arithmetic on f64 is left open; sums of counts are assumed not to overflow.
* **C87 Groups are independent** (proved; Props/Agg). ExprAgg and aggregators of library users are not modelled.
* **C88 Signed numbers** (partial; Props/AggMake). Refuted: -2^63 overflows, and the suffixes Z and Y negate (usize::MAX as isize is -1). Proved otherwise. The multipliers themselves are those of the code (see the finding on powers).
* **C89 Options of merge** (partial; Props/AggMake). Refuted: a delimiter option at the end is an error. Proved if every delimiter option is followed by one that is neither a delimiter option nor the comparator.
* **C90 Names of aggregators** (partial; Props/AggMake). Refuted: anything before a dot is ignored, so frob.sum is sum. Proved: the last dotted word decides and has to be known.
* **C91 uniq without a key** (partial; Props/Uniq). Refuted: without --key all lines are one run, for every file with data (C91_one_run).
* **C92 The count column** (proved; Props/Uniq). Rows are lists of columns without delimiter or newline.
* **C93 cat with numbers and lines removed** (partial; Props/CatSlow). Refuted: a file with only a header ends the command; in quote mode old lines are written; a header after a file without one is written among the lines. Proved in plain mode for any files none of which has only a header.
* **C94 Values for columns** (partial; Props/Paste, Props/Tighten). Refuted: an empty value before the delimiter becomes the delimiter itself. The lookup part (C94_last) is proved without restriction; parsing for non-empty values.
* **C95 Names of columns without header** (partial; Props/Details, Props/Paste). Refuted: the made-up header is joined with tabs but split at the delimiter of the file. Proved for the tab delimiter. sort makes up its names by itself and gets them right (C95_sort).
* **C96 Lines at regular distances** (partial; Props/Sample). Refuted: lines are counted from 0, but from must be at least 1, so the first line is never written; a huge step overflows. C96_for_partial: exactly the wanted lines counted from 0 in plain mode, if step plus number of lines fit into a word.
* **C97 Sampling several files** (partial; Props/Sample). Refuted: files after one with only a header are not sampled. Proved in plain mode for sizes from 3 to 2^24, if no file has only a header.
* **C98 Texts of ranges** (partial; Props/Sample). Refuted: empty numbers are accepted as 0. Proved: all texts of ranges are read as they should, and every list of ranges has such a text.
* **C99 The short format of numbers** (partial; Props/Num). Refuted: zero is printed as 0e0, and 1234 as 1.234e3. Partial: it is always one of the two texts, and the shorter one from 1 to 999.
* **C100 Printing whole numbers** (partial; Props/FloatPrint, Props/Num). Proved for integers, printed exactly. With doubles refuted: from 2^53 on the plain format writes the shortest digits, 2^60 is printed as 1152921504606847000. C100_doubles_partial: every whole double with a precision, and up to 2^53 without one.
* **C101 Numbers with a letter for the power** (proved; Props/FloatPower, Props/Num). C101_powers for integers with exact quotients, C101_doubles for every finite double with the rounding of f64.
* **C102 The format of wc** (partial; Props/Wc). Refuted: if no aggregator is given, the format is applied before the default aggregator is added. Proved if any is given, and always with --columns.
* **C103 wc by column** (partial; Props/Wc). Refuted: a file with only a header hides the files after it; a line with more fields than columns panics; with totals only the header is longer than the row. Partial: exact output for any options and aggregators in plain mode without such files.
* **C104 Writing and reading back under one name** (partial; Props/Files). Refuted: names beginning with << are read as literal text, and -- is written to stderr. Proved for plain names and contents that are not compressed.
* **C105 Comparing strings without case** (partial; Props/Details, Props/Insens). Refuted: lengths are compared before lowering; with the Kelvin sign neither order nor equality is transitive. Proved where every character keeps its length, in particular for ASCII.
* **C106 Reading floating point numbers** (partial; Props/TextNum). Refuted: a text without any digit is accepted, and a long exponent overflows. Partial: exact characterisation of what is accepted, with values in rational numbers; for the rounding of f64 see C185.
* **C107 Printed numbers are read back** (partial; Props/FloatPrint, Props/TextNum). C107_read_back and C107_powers with exact arithmetic, for integers below 2^1024. With doubles refuted: the default format prints 1148 as 1.148e3, which is read as 1148.0000000000002. C107_plain_partial: without an exponent every whole number up to 2^53 is read back as the same double. See C197 for others.
* **C108 Junk in numbers** (partial; Props/TextNum). Proved for usize and isize. Refuted for floats: a sign alone counts as a number. Partial for floats: right for texts that begin with a number, and for those that do not begin with any part of one.
* **C109 Tables of makers** (partial; Props/Registry, Props/Tighten2). Exact meaning of every name after any calls. Refuted: an alias of an alias makes nothing, and a maker pushed under the name of an alias is not reached. Partial: right if the name is no alias.
* **C110 Comparators from specifications** (partial; Props/CompMake, Props/MethodWords). Refuted: the aliases num and len are not known in capitals, though all other names are. Proved for every other specification.
* **C111 Modifiers of comparators of values** (partial; Props/CompMake). Refuted: comparators of values ignore rev and the words about junk. Partial: only the name counts.
* **C112 Lists of comparators of values** (partial; Props/CompMake). Order and equality proved. Refuted: with several comparators a stored value must have as many parts as there are comparators, each compared with the whole other value. Proved for one comparator; with several the answer is exact.
* **C113 Generated files** (proved; Props/Filegen). Random choices, expressions and the normal distribution are parameters.
* **C114 Texts of generators** (partial; Props/Filegen). Refuted: count adds line and start before it subtracts one, so the last possible number fails; decimal with 20 digits overflows. Proved otherwise. The alias minimum stands for a name that does not exist.
* **C115 Aggregation in uniq** (partial; Props/UniqAgg). Refuted: if no key needs columns, lines after the first are not split and aggregators see no columns, or those of an older line; without a header and with a delimiter other than tab it panics. Proved for plain files, keys with columns and distinct valid names.
* **C116 Header and count of uniq with aggregation** (proved; Props/UniqAgg). Names and counts; the texts of numbers are a parameter.
* **C117 Texts of aggregators of lines** (partial; Props/Tighten, Props/UniqAgg). Refuted: LineAgger::new passes the word prefix or append on as the name of the new column. Proved for replace and for the functions uniq uses. An expression in place of a column is never shown.
* **C118 Text formats** (partial; Props/Settings). Refuted: characters after the fifth are ignored, and a character outside ASCII stands for the low byte of its number. Proved for texts of at most five ASCII characters.
* **C119 Format of the output** (partial; Props/Settings). Refuted: what --text-out leaves out is that of the default format, not that of --text-in. Proved if the text is complete or the input format is the default one. The library that takes the command line apart is not modelled.
* **C120 Order of options** (proved; Props/Settings). From the pieces of the command line as clap numbers them.
* **C121 Options are handled** (partial; Props/Settings, Props/Tighten). Refuted: binsearch --sub-delim, uniq --agg-help, verify --report and verify --show-matchers are declared but have no branch and panic. Proved for command lines without these four.
* **C122 Commands and status** (proved; Props/Options). What the commands do is a parameter.
* **C123 Words of options** (proved; Props/Options). Case is that of ASCII.
* **C124 Options of binsearch** (proved; Props/Options). A name alone leaves the number of parts at zero, so the column is empty for every file.
* **C125 Option --number of cat** (partial; Props/Details, Props/Options). Refuted: what a later option leaves out stays as an earlier one set it. Proved if the last option has all three parts.
* **C126 Options of join** (partial; Props/Options). Refuted: an empty name of a column panics, as in 1. or a trailing comma. Proved for named columns without modifiers and matchers.
* **C127 Search of a sorted file from the command line** (partial; Props/BinMain). Refuted: keys cut lines at tabs whatever the separator of the file, and the header line takes part in the search with its columns moved by one. Proved for tab-separated files if the value is greater than what the header line has in that place, and for files without a header with any value; C127_lines_partial is for any keys and context.
* **C128 File name column of binsearch** (partial; Props/BinMain). Refuted: a tab is written after the name of the file whatever the separator, and without a name for the column every file with a header is an error. Proved for tab-separated files and a named column.
* **C129 Headers of the files of binsearch** (partial; Props/BinMain). Refuted: files without a header are not checked, so they may be mixed with files that have one. Proved for the files that have a header.
* **C130 Composite columns** (partial; Props/Cut, Props/CutTable). Refuted: a letter such as k after a number without braces is read as part of the number (^1k is column 1000), and in quote mode each piece is quoted for itself. Proved if without braces the next byte can not belong to the number or name, for plain and backslash output.
* **C131 Groups of columns** (partial; Props/CutTable). Refuted: the delimiter within a value is replaced by a space. Proved for values without the delimiter and newlines; for others splitting gives the values with spaces there.
* **C132 cut writes as many fields as names** (partial; Props/CutTable). Refuted: a group is not escaped for the output, so its delimiter may be that of the output, and a selection with no column left still writes an empty field. Proved for all wants with something selected, with values that can not be confused with the delimiter, groups with another delimiter and expressions without it.
* **C133 Output of cut** (partial; Props/Cut, Props/CutTable). Refuted: in quote mode the pieces of a composite are quoted one by one. Proved for plain and backslash output for any files; C133_table_partial is for tables with any separator.
* **C134 Renaming columns** (partial; Props/CutMore). Refuted: a rename is used only for a name that is already there, the first column keeps the old name. Proved: what push does in each case.
* **C135 cut rejects columns that do not exist** (partial; Props/CutMore). Refuted: a column number beyond the line is accepted in files without a header, and in composites always. Proved for names, ranges that make no sense and column 0 in any file; for large numbers if the file has a header and headers are checked.
* **C136 Sloppy selections** (partial; Props/CutMore). Refuted: write_sloppy writes no delimiter. Everything else is proved.
* **C137 The alternate sort is the same stable sort** (proved; Props/SortAlt, Props/SortMain). C137_do_sort is for the items and keys of the sorter, under the conditions of C28 for keys and lines.
* **C138 The alternate sort never fails** (proved; Props/SortAlt). 
* **C139 The options of sort** (proved; Props/SortMain, Props/SortTable). Options are given parsed; keys that are expressions or random are not in this part of the model. That --alt-sort does nothing is what the code does (Sorter::new takes the default configuration).
* **C140 Sorting tables by columns** (proved; Props/SortTable). For data that fit into the buffer, columns separated by tabs, methods plain, lower, ip, length and equal, and a first key that is not reversed plain, lower or ip (C25 shows what is wrong with others).
* **C141 Formulas see the columns of a line** (proved; Props/ExprLine, Props/MethodWords, Props/Tighten2). For formulas as C36 writes them and without brackets (C143). Arithmetic and the reading of numbers are parameters. Constants hide columns of the same name.
* **C142 Formulas follow the header of each file** (partial; Props/ExprLine). The code violates the first part: names already known keep the columns of the first header (C142_refuted); C142_keeps_partial says exactly what happens, C142_same_partial when this is harmless. The second part, comparators with a formula for each file, is proved (C142_files). A comparator never looked up panics.
* **C143 Lists of columns in formulas** (proved; Props/ExprBracket). Lists without brackets in them. C143_call needs that no column has the name cN of one of the columns (C72).
* **C144 Aggregating by a formula** (proved; Props/ExprUse, Props/Tighten2). For formulas as in C141.
* **C145 Generating by a formula** (proved; Props/ExprUse). 
* **C146 The command calc** (proved; Props/ExprUse). Plain lines. How numbers are written is a parameter.
* **C147 Calc takes any line** (partial; Props/ExprUse). An empty line, or one of parentheses only, crashes the program (C147_refuted); no other line does (C147_safe_partial).
* **C148 Every constant can be used** (partial; Props/ExprUse). All constants but pi and e have an underscore in their name, which no formula can contain.
* **C149 cgrep tells where each selected line is** (partial; Props/GrepMain). If the header is skipped its bytes are not counted, so all offsets are too small (C149_refuted). Otherwise it is so for all files (C149_places_partial). The names of location columns must differ from those of the file (otherwise the command fails).
* **C150 cgrep with locations writes a table** (partial; Props/GrepMain). The fields that are added are always followed by tabs (C150_refuted); proved for tables separated by tabs, and for all separators when no locations are added.
* **C151 Texts of location columns** (partial; Props/GrepMain, Props/OtherNames). 'name.' with an empty number is accepted (C151_refuted). All intended texts have their meaning, and nothing is accepted besides them but name. followed by what the reader of whole numbers accepts.
* **C152 Options of cgrep in any order** (proved; Props/GrepMain). The texts of patterns and locations are assumed to be accepted (C51, C151).
* **C153 Several files fit the screen** (partial; Props/TabsMain, Props/Tighten). More than (lines - 1) / 2 files crash the program (C153_refuted: 13 files, 25 lines). Proved if there are three lines for each file. Files whose rows have more columns than the header crash it too (C70) and are excluded.
* **C154 Shares of the screen** (proved; Props/TabsMain). Names longer than the table is wide are left out, see C156.
* **C155 Nothing is cut off that would fit** (partial; Props/TabsMain). Lines not needed by later files are not given to earlier ones (C155_refuted); proved if each file fits its share.
* **C156 Names above files** (partial; Props/TabsMain). A name longer than its table is wide is not written (C156_refuted); every other name is.
* **C157 Transposing some of the lines** (proved; Props/TabsMain). Files in the default text mode, complete lines. N = 0 is different (no line at all).
* **C158 Objects are read as a whole** (partial; Props/S3). An empty piece is taken for the end of the object (C158_refuted). Proved for pieces that are not empty, with errors.
* **C159 Names of objects** (proved; Props/S3). 
* **C160 Compressed objects are recognised** (partial; Props/S3). Only the first piece is looked at: if it has fewer than three bytes the object is not decompressed (C160_refuted). Proved if it has three.
* **C161 Test files mean what is written in them** (proved; Props/ToolTest). Names of output files have no white space and output texts are valid UTF-8, as the code demands. White space is that within ASCII.
* **C162 A test passes exactly if all is as expected** (partial; Props/Tighten, Props/ToolRun). A file that is input and output is deleted before it is looked at, so the test cannot pass (C162_refuted). Proved if all files of the test have different names. The program is a parameter.
* **C163 Tests do not influence each other** (partial; Props/ToolRun). A test is given up at the first missing output file, and the other files stay in the directory, where they fail the next test (C163_refuted). Proved if every earlier test came to a result; C163_verdict says when it does.
* **C164 Counting of tests** (proved; Props/ToolRun). 
* **C165 Words of the command** (partial; Props/ToolRun). Two spaces make an empty argument (C165_refuted). Proved for single bytes of white space; dollar signs occur only in $TMP.
* **C166 Makers can be looked up by many threads** (partial; Props/Threads). init looks whether the table is empty and lets go of it, so a second thread finds a table half filled (C166_refuted). Proved: a thread never finds a wrong maker; once one thread has had its first answer, all find what there is; every call ends. A lock is held during one step.
* **C167 What a thread adds it finds** (partial; Props/Threads). Another thread that is still in init replaces what was pushed (C167_refuted). Proved for tables in use.
* **C168 No deadlock among the tables of makers** (proved; Props/Locks). The calls and the locks they take are listed by hand from the code.
* **C169 Equality with stored values** (partial; Props/SelfComp). The method length keeps 32 bits (C169_refuted). Agreement with the comparison holds for all comparators and values (C169_as_compared); with the values themselves for texts shorter than 2^32 bytes.
* **C170 Items keep place, length and mark in their bits** (partial; Props/SelfComp). A line of 2^31 bytes or more uses the bit of the mark (C170_refuted); proved for shorter lines. The buffer has at most MAX_DATA bytes.
* **C171 Comparing items compares their texts** (partial; Props/SelfComp). Keys pad short texts with the byte 0 (C171_refuted). Proved for texts without it.
* **C172 Explanations of failed lines** (partial; Props/Verbose). The verbose And asks all tests, one of which may panic after another has failed (C172_refuted). Proved if every test has an answer.
* **C173 Explanations of failed matches** (partial; Props/Verbose). The test is the wrong way round: successes are reported as failures (C173_refuted, C173_inverted_partial).
* **C174 Clones of matchers** (partial; Props/Remake, Props/Verbose). A clone accepts everything (C174_refuted). Made again with the pattern it is the original (C174_remade_partial), which is all the code does with clones. What making a matcher again does with its flags.
* **C175 Copying a single file** (proved; Props/Verbose). Writing succeeds.
* **C176 Words for header modes** (proved; Props/Verbose). 
* **C177 A header is a string** (proved; Props/Utf8). UTF-8 is written out in Spec/Utf8.lean; the decoder of std is modelled in Model/Utf8.lean and proved to accept exactly the strings.
* **C178 Columns of a header are strings** (partial; Props/Utf8). A delimiter above 127 can be the first byte of a character of the header, which panics (C178_refuted). Proved for one-byte delimiters.
* **C179 Headers made up for files without one** (partial; Props/Utf8). Every delimiter above 127 panics (C179_high). Proved for the others.
* **C180 The name at the front of a text** (proved; Props/Utf8). Which characters are letters and digits is a parameter.
* **C181 Names in headers** (proved; Props/Utf8). Letters are alphanumeric, as in std.
* **C182 Tests with utf8 find the text they look for** (partial; Props/StrCuts). A text with U+FFFD also finds bad bytes (C182_refuted). Proved for texts without it and for all values.
* **C183 Parts of option texts are strings** (proved; Props/StrCuts). 
* **C184 Option texts are not cut inside a character** (partial; Props/Details, Props/StrCuts). Each of the four can be cut inside a character (C184_refuted, C184_others). The partial theorems say exactly for which strings. C184_set is the set of columns in brackets.
* **C185 Decimal texts are read as the nearest double** (partial; Props/Float, Props/FloatNear). Refuted: 0.3 is read as the double above the nearest one. Partial: exact for whole numbers up to 2^53 (with exponents 0 to 3 and suffixes); otherwise within a factor of (1 +- 2^-53)^(2 digits + 1), hence 2^-41 of the number for up to 300 digits on each side. Doubles are modelled bit by bit.
* **C186 The order of numbers read from texts** (partial; Props/Float, Props/FloatNear). Refuted: 90071992547409929 is read as a greater number than 90071992547409930. Partial: whole numbers up to 2^53, and any decimals that differ by more than the error of reading.
* **C187 No text is read as NaN** (partial; Props/Float). Refuted: 0e400 is zero times infinity; comparing it with a number depends on which comes first. Partial: exactly which texts are read as NaN, and none with an exponent from -323 to 308. libm::exp10 is a parameter, for the witness and the range it gives nearest doubles.
* **C188 Texts of the same number are read alike** (partial; Props/Float). Refuted: 0.3e1 and 3. Partial: leading and trailing zeros and a plus sign never matter; whole numbers up to 2^53 with any exponent from 0 to 3 and any suffix.
* **C189 Column sets can be tested with thresholds** (partial; Props/Thresh). Refuted: the determiner is cut off at the first comma, so that no column set with a threshold is ever accepted. Partial: the determiners without threshold are accepted as meant; Determiner::new by itself reads all six words with threshold, counts exactly, fractions up to the error of reading a double.
* **C190 The words of formulas, determiners and formats** (proved; Props/Words). The words are listed in Spec/Words.lean.
* **C191 Malformed option texts are errors, not panics** (partial; Props/Malformed). Refuted: a number that does not fit, followed by a non-digit or nothing, panics. Partial: twenty readers of options panic for no text that holds no such number.
* **C192 Columns chosen by patterns** (partial; Props/NamePattern). Refuted: not has no effect on names, and a comma after a pattern is an error. Partial: patterns written one after the other choose what they mean without not. Methods exact, prefix, suffix, infix.
* **C193 Sums and means of whole numbers** (partial; Props/Exact). Refuted: 9007199254740992, 1, 1 have another sum than 1, 1, 9007199254740992. Partial: whole numbers whose sizes add up to at most 2^53 have the exact sum and the rounded exact mean, in every order; doubles bit by bit.
* **C194 Formulas of whole numbers are exact** (partial; Props/Exact). Refuted: 9007199254740992+1+1 is 9007199254740992. Partial: formulas in which every step is a whole number of size at most 2^53 are exact: operators but ^, comparisons, signs, factorials of positive numbers, max, min, if, fma, abs, fabs, floor, ceil, round, trunc, fmod, fmax, fmin, fdim. C194_text_partial is for the text of the formula, written in any way, through tokenizer, parser and compiler.
* **C195 The words of a matching method** (proved; Props/MethodWords). C195_flags gives every setting from the words; C195_order: any order makes the same matcher. null has the effect of not, see C58.
* **C196 The texts of doubles** (proved; Props/FloatDigits, Props/FloatText). The search of std for the digits is modelled by what it promises (shortest, then nearest); the theorems are about all decimals, not only those of the search.
* **C197 Doubles are read back** (partial; Props/FloatBack, Props/FloatPrint). Refuted: 0.3 is read as 0.30000000000000004. C197_near_partial: from 1e-270 to 1e299 the double read back differs by at most a 2^40th; C107_plain_partial: whole numbers up to 2^53 are read back exactly.
* **C198 Numbers printed with a precision** (proved; Props/FloatPrec). NearestInt states the rounding on rational numbers.
* **C199 The options of uniq** (proved; Props/UniqMain). C199_options: exactly which options are accepted and what they ask for. C199_order: the whole command. C199_runs_partial connects the options with C51. --agg-help is declared and panics, see C121. Expressions of keys are a parameter; the random comparator is not modelled.
* **C200 The options of verify** (partial; Props/VerifyMain). Refuted: the declared option --report panics (and so does --show-matchers, C200_stops). C200_options_partial: exactly which options are accepted and what they ask for, without the two that print a list. C200_verified_partial: the whole command, except that nothing is asked of the columns of the last line (C53). Expressions of keys are a parameter; the random comparator is not modelled.
* **C201 The options of cat** (partial; Props/CatMain). Refuted: with numbers a file with only a header ends the command. C201_options: exactly which options are accepted and what they ask for. C201_copies: without options about numbers and lines the files are copied as C52 says. C201_rows_partial: the rows written in plain mode if no file has only a header and the matchers always have an answer.
* **C202 The options of wc** (partial; Props/Tighten, Props/WcMain). Refuted: an empty file has no row. C202_options: exactly which options are accepted and what they ask for. C202_order: only the order of the aggregators and the order of the values of each other option matter. C202_shortcuts: --lines and the like stand for their aggregators. C202_counts_partial: the rows written if every file ends in a newline. C202_columns_partial: the rows with --columns, if no file has a header only. C202_format: header and row in the format of the output.
* **C203 The options of sample** (partial; Props/SampleFull, Props/SampleMain). C203_options: exactly which options are accepted and what they ask for. C203_once: a second option is an error. C203_lines_partial and C203_default_partial: the lines written in plain mode if all files have the same header and none has only a header, at most 2^24 lines are asked for by --sample, and the counts of --for do not overflow (C59, C96 and C97 have the counterexamples). Refuted: lines are counted from 0, the help text says from 1.
* **C204 The options of paste** (partial; Props/PasteMain). Refuted: with --last and --end late a file with only a header is a panic. C204_options: exactly which options are accepted and what they ask for. C204_unused: a rename that is not used is an error unless --rename-sloppy is given. C204_pasted_partial: what is written for files with headers in plain mode, if with --last and --end late every file has a line.
* **C205 The options of join** (proved; Props/JoinMain). C205_options: exactly which options are accepted and what they ask for. C205_order: options of different names in any order.
* **C206 Joining two tables** (proved; Props/JoinMain, Props/Tighten). C206_join: what join writes, from the texts of the options and the contents of the files. How keys may be written is JoinKey.Text, how rows are combined is joinedRows and lonelyRows. C206_errors: fewer than two files, or columns of a file that is not there. C206_whole, C206_expr: how keys without columns compare.
* **C207 Sorting two tables, then joining them** (proved; Props/Pipes). From the texts of the options and the contents of the files. The first key may be reversed only if it compares lengths (C25 says why), no value holds a zero byte, and the tables fit in the buffer.
* **C208 Counting the runs of a table** (proved; Props/PipesUniq). From the texts of the options and the content of the file. Keys compare as plain, lower, length or ip text and may be reversed; no --agg and no --which.
* **C209 Sorting tables, then making them unique** (proved; Props/PipesUniq). Keys and tables as in C207 and C208; the last part compares with sort --unique with any fitting options.
* **C210 Verifying tables by keys, and what sort writes** (proved; Props/PipesVerify). C210_verify: any tables with the same header, from the texts of the options. C210_sorted: the output of sort. Keys as in C207; no --pattern, --first or --last.
* **C211 Pasting tables, and pasting what cut gives** (proved; Props/PipesCut). C211_paste: tables with headers, TAB between columns. C211_cut_paste: columns, groups and composites with constant texts (as in C133_table_partial); no expressions.
* **C212 Merging sorted tables, and sorting in parts** (partial; Props/PipesMerge). Refuted: the keys are not looked up when merging, so that a key given by name compares the first column (C212_refuted). Proved for keys given by number, with --alt-merge, or with the default merge if rows with equal keys are equal (C29: it is not stable).
* **C213 Searching what was sorted** (partial; Props/PipesBin). binsearch compares the header line too, so rows can be missed (C213_refuted); proved for values greater than what the header line has at the place of the column.
* **C214 Choosing rows of tables with cgrep, from the texts of its patterns** (proved; Props/PipesGrep). Methods are those of plainMethods and caseMethods (Spec/Match.lean), with or without `not`; the pattern of a method that ignores case is not empty.
* **C215 Choosing rows before or after other programs** (proved; Props/PipesGrep). C215_search: for values greater than what the header line has at the place of the column (see C213). C215_sort: values without zero bytes, tables that fit in the buffer (as in C140).
* **C216 Sorting twice** (proved; Props/PipesSort). C216_keys: the key lists appended. C216_again: idempotence. Conditions: values without zero bytes, tables that fit in the buffer, as in C140.
* **C217 Cutting columns before or after sorting or choosing** (proved; Props/PipesCols). KeptCol says that a column is in a list of fields under its own name. Expressions in cut are left out, as in C133.
* **C218 Where options stand on the command line** (proved; Props/Program). The words are those clap accepts for the tables of the command (Accepts). Accepted words are given to the model already taken apart, see DESIGN.md.
* **C219 What a command changes** (proved; Props/Program). In the model a command that fails has written nothing; the claim for join is about runs that succeed. tooltest runs other programs and is left out.
* **C220 Pipelines of commands** (proved; Props/PipesRun). World.pipe runs the commands one after the other. Built on C209, C210, C215, C216 and C217, with the conditions given there.
* **C221 Scripts of commands with files between them** (proved; Props/PipesFiles). World.script runs pipes one after the other, each into a file. Built on C207, C211, C212 and C213, with the conditions given there: right keys of join are all different, keys of --merge by number, values of binsearch greater than what stands in the header line.
* **C222 Single commands from the command line, with text formats** (proved; Props/RunCmds). Says takes the words apart; World.run runs the command. The conditions on the files are those of the claims about the mains they are built on (C53, C54, C113, C129, C146, C154, C157, C201-C204, C208, C210). All floating point numbers are any operations; wc needs sums of counts to be exact.
* **C223 cut applies the transforms asked for** (partial; Props/CutTrans). Violated for options that only leave columns out (C223_refuted: `~b+upper` writes the values unchanged; C223_only_left_out: their transform never has an effect). Proved for all other options (C223_cut_partial), with the transforms of the program (C223_transforms) and the panic if a transform fails (C223_fails).
* **C224 Formulas of whole numbers are written exactly** (partial; Props/Linked). The full statement (C224_statement) is refuted: calc writes `-0` for `0*-1`. Proved for values that are not 0. Values beyond 2^53 and fractions are outside the statement proved.
* **C225 cgrep with formulas** (proved; Props/LinkedGrep). 
* **C226 Sorting by numbers and formulas orders rows by their values** (partial; Props/SortNums). The order is wrong when the first key is a formula with values 0 and -0 (C226_refuted): rows with -0 come before rows with 0. C226_partial needs the values of a formula that is the first key not to be 0; the first key may not be a text column in reverse, or hold a NUL (C25); data fits the buffer; at least one row. Missing: fractions and numbers beyond 2^53.
* **C227 Patterns that compare columns choose the rows of which the comparison holds** (partial; Props/CompRows). Columns in brackets panic (C227_refuted) or are not found (C227_refuted_method), and so is the column after a word with a dot (C227_refuted_dot): find_close gives the position after the bracket, and a word of two letters is taken without the dot. `<b` with no method is too short (C227_short). C227_partial proves the claim, from the command line to the text written, for operators not followed by a dot and columns without brackets, if there are at least three bytes after `comp,`.
* **C228 uniq by numbers and formulas** (proved; Props/UniqNums). From the words of the command line to what is written, with formulas, numbers and doubles modelled (C225).
* **C229 verify by numbers and formulas** (proved; Props/UniqNums). From the words of the command line to success or failure, with formulas, numbers and doubles modelled (C225).
* **C230 uniq with sums of groups** (proved; Props/UniqSums). From the words of the command line to what is written, with formulas, numbers and doubles modelled (C225). A finding: with aggregators the counts of --count of 1000 and more are written like 1e3, while without aggregators they are in decimal.
* **C231 uniq with formulas that aggregate groups** (proved; Props/UniqFolds). From the words of the command line to what is written, with formulas, numbers and doubles modelled (C225).
* **C232 Totals of groups by sort and uniq** (proved; Props/Totals). Two whole commands in a pipe, from their words to the bytes written. IsGroups.unique: there is only one such list of groups.
* **C233 Counting rows by patterns** (proved; Props/GrepCount). Two whole commands in a pipe, from their words to the bytes written.
* **C234 sort, uniq and verify agree on numbers and formulas** (proved; Props/SortAgree). Whole commands in pipes, from their words to the bytes written.
* **C235 How far the sum and the mean of a column are from the exact ones** (proved; Props/MeanError, Props/SumError). Says what remains of C193 (which is refuted) for columns of any doubles. The errors of reading the texts are in C185 and its companions.
* **C236 Sorting or making unique twice by numbers and formulas** (proved; Props/TwiceNums). Whole commands in pipes, from their words to the bytes written.
* **C237 Files that cannot be opened** (proved; Props/MissingFiles). The model opens all files first; cat and sample are excluded because they do not always.
* **C238 Sorting by a column of decimals** (proved; Props/DecTwice, Props/SortFloat). Minus zero is left out, as its cached key is before that of 0 (C26); C238_minus_zero is a table where this shows. The bound is that of C185.
* **C239 sort, uniq and verify agree on decimals** (proved; Props/DecAgree). Whole commands and pipes, from their words to the bytes written. Minus zero is left out, as in C238.
* **C240 Words that are refused** (proved; Props/Refused). The list of commands is written out in the statement. For formulas among the keys, the model refuses --check and --merge alone, too, where the program panics (a simplification stated in Model/SortFormula.lean).
* **C241 Sorting or making unique twice by decimals** (proved; Props/DecTwice). Whole commands in pipes, from their words to the bytes written.
* **C242 Sorting by decimals and then by further keys** (proved; Props/DecKeys). Minus zero is left out of the first column, as in C238. Decimals are asked for in the first key only; further numeric keys hold whole numbers.
* **C243 sort, uniq and verify agree on decimals with further keys** (proved; Props/DecKeysAgree). What sort writes by these keys is C242. Minus zero is left out of the first column.
* **C244 Sorting by other keys first and by decimals last** (proved; Props/DecPipes). The conditions on the keys of the first sort are those of C226_partial.
* **C245 cat before sort changes nothing** (proved; Props/CatSort). The tables are separated by tabs, as in C226.
* **C246 Choosing rows before or after sorting by numbers** (proved; Props/GrepDec). Names of files that end in a slash are left out, as in C225.

## What is modelled, and how

From the heads of the model files.

* `Agg`: Aggregation of values, `/repo/src/agg.rs`. Simplifications. Arithmetic on f64 is left open (`FloatOps`), and so are the parser of numbers, the Unicode tables and the reader of comparator specifications (`AggEnv`). `result` gives the number to print instead of printing it. Sums of counts (`usize`, `isize`) are assumed not to overflow. Aggregators that users of the library register are left out.
* `Basic`: Shared vocabulary of the model: bytes and the byte constants that appear in `/repo/src`.
* `BinMain`: The command binsearch: `/repo/src/binsearch.rs` 12-70 and `/repo/src/bin/cdx/binsearch_main.rs` 89-187, after its options have been read (see `Model/Settings`). Simplifications. Files are their contents. Whether a header is text in UTF-8 and whether a name of a column is valid are parameters, and so is what an expression gives for a line. The random method of comparison is an error here.
* `Binsearch`: Binary search in text buffers. Models `/repo/src/binsearch.rs` 73-205. The comparator (`LineCompList::comp_self_line`, which compares the stored search value with a line) is a parameter `cmp : Bytes → Ordering`: `cmp l = .lt` means that the search value is less than `l`.
* `Cat`: The `cat` command, `/repo/src/bin/cdx/cat_main.rs`. Simplifications. Matchers are given as tests of lines. The line number is not bounded. The header is written in the default text mode.
* `CatMain`: The `cat` command from its options, `/repo/src/bin/cdx/cat_main.rs`. Simplifications. Options come as pairs of a name and a value, as `args::parse` gives them. As in `Model/Cat.lean` the line number is not bounded and the header is written in the default text mode.
* `Cgrep`: The `cgrep` command, `/repo/src/bin/cdx/cgrep_main.rs`. Simplifications. Files are read and written in the default text mode. `--location` and the options that print help are left out. Matchers are given made (`makeLine`).
* `Column`: Column selection and output. Models `/repo/src/column.rs` 67-226, 307-337, 758-819, 828-1106, 1232-1244, 1411-1425 and 1524-1542. Column names and specs are byte strings; only ASCII letters count as alphabetic (the code uses the Unicode classes `is_alphabetic` and `is_alphanumeric`).
* `Comp`: Comparators. Models `/repo/src/comp.rs` and the parts of `/repo/src/num.rs` and `/repo/src/text.rs` it uses. Simplifications: a 64-bit float is its bit pattern; `==` and `>` on floats are IEEE 754 (`F64.eq`, `F64.gt`); the conversion of text to a float (`to_f64_lossy`) is a parameter. A cache is a natural number (below 2^64); the top bit of `size_plus` is a separate field, so lines are assumed shorter than 2^31. The `random` comparator is not modelled.
* `CompMake`: Making comparators from specifications, and lists of comparators of values: `/repo/src/comp.rs` 108-189, 476-485, 870-908, 1034-1261. Simplifications. The tables are those of `init`. Whether an expression can be compiled is a parameter. Names of methods are ASCII.
* `Cut`: The `cut` command, `/repo/src/bin/cdx/cut_main.rs`, with the kinds of columns it can write, and the remaining selections of `/repo/src/column.rs`. Simplifications. The options are given as pairs of a name and a value, in order. Translators, matchers of column names and expressions are parameters (`CutEnv`). Files can be read, and writing does not fail. The numbers of expressions are texts.
* `Expr`: Formulas. Models `/repo/src/tok2.rs`, `/repo/src/shunting_yard.rs` and the compiler and evaluator of `/repo/src/expr.rs`. `F` is the type of numbers. The floating point operations are parameters (`FloatOps`), so every theorem holds whatever they compute. `Vec`s used as stacks are lists with the top first. Messages to the terminal are left out.
* `ExprLine`: Formulas with the columns of lines as variables: `/repo/src/expr.rs` 15-35, 432-530 and 594-636, and what is made of them: matchers (`/repo/src/matcher.rs` 1964-2006), comparators (`/repo/src/comp.rs` 1834-1932), columns (`/repo/src/column.rs` 549-586), aggregators (`/repo/src/agg.rs` 179-236), generators (`/repo/src/textgen.rs` 92-122) and `/repo/src/bin/cdx/calc_main.rs`. Simplifications. Arithmetic, the reading of numbers and the writing of numbers are parameters. Texts are bytes; what is not ASCII is kept as it is (`from_utf8_lossy` changes nothing). An expression whose parsing failed is not used again. Error messages are left out.
* `Filegen`: Generating text, `/repo/src/textgen.rs` and `/repo/src/bin/cdx/filegen_main.rs`. Simplifications. What the random generator answers is a parameter, a `Draw` for each cell; `fastrand::usize(..n)` is the drawn number modulo `n`. What expressions and the normal distribution write is a parameter. The debug output of `DecimalGen::new` is left out. If writing a cell fails, what was written before is not shown.
* `Files`: Opening files by name, `/repo/src/util.rs` 1203-1261. Simplifications. A file is a list of bytes, and the files are a function of the name; all files may be read and written. What S3 and gzip deliver are parameters. The buffer of a writer passes the bytes on in pieces, at any time.
* `Float`: Arithmetic of doubles, bit by bit, and the code that uses it: numbers in texts (`/repo/src/text.rs` 675-753) and quotients of counts (`/repo/src/num.rs` 5-31). Simplifications. The arithmetic is that of IEEE 754 binary64, rounding to nearest with ties to even, as Rust defines `f64`. All operations that are not numbers give the same bit pattern, `F64.nan`; the sign and payload of real machines differ. `libm::exp10` is a parameter.
* `FloatOps`: Formulas (`src/expr.rs`) and aggregators (`src/agg.rs`) with doubles. The operators, comparisons, `abs`, `floor`, `ceil`, `round`, `trunc`, `copysign`, `fmax`, `fmin`, `fdim`, `fmod` and `fma` are modelled bit by bit. Powers, the other functions of the library and the constants are taken from `rest`, an arbitrary choice. Which NaN a result is, is left out.
* `FloatText`: Texts of doubles: `print` of `/repo/src/num.rs` for every `f64`. The four ways std writes an `f64` (`{}`, `{:e}`, `{:.N}` and `{:.Ne}`) are modelled by what they promise: without a precision the shortest decimal that is rounded to the number, and of these the nearest; with a precision the decimal rounded to the nearest, ties to even. How std finds these digits is not modelled.
* `GrepMain`: The `cgrep` command with its options and location columns: `/repo/src/bin/cdx/cgrep_main.rs`, and `FileLocList` of `/repo/src/util.rs`. Simplifications. The options are given as pairs of a name and a value, in order. The texts printed by `--show-const` and `--show-func` are left out. Files can be read, and writing does not fail. Values of expressions are those of `MEnv`.
* `Header`: The header policy. Models `/repo/src/util.rs` 1824-1843 and 1874-2023.
* `Insens`: `cmp_insens` and `equal_insens` of `str` (`src/text.rs` 382-418). A character is its code, `char::to_lowercase` is a function `low` to one or more characters, and the length of a string is its number of bytes in UTF-8, as in std.
* `Join`: Quick join. Models `/repo/src/join.rs` 121-129 and 157-324, with the parts of `Reader` it uses (`/repo/src/util.rs` 369-375, 1302-1335, 1531-1560). Key columns and output columns are given resolved (`LineCompList::lookup_n` and `ColumnSet::lookup`, see `Model/Column`). The output files are different files and are empty when opened.
* `JoinMain`: The `join` command from its options, `/repo/src/bin/cdx/join_main.rs`, and the lookup of its columns, `/repo/src/join.rs` 200-235. Simplifications. Options come as pairs of a name and a value, as `args::parse` gives them. `compiles` tells whether an expression of a key can be compiled, `eval` what it computes and `exprCols` which columns it uses. The random comparator is not modelled; a key with it is an error. The columns of a key are looked up for all files before those of the next key, which only matters for which error is reported. The others are those of `Model/Join.lean`.
* `Linked`: The parts of the program put together: what `Verif.Model.Program` takes as parameters is here what the modules of `/repo/src` compute. Only what comes from outside of `/repo` is left as a parameter. Simplifications. A formula that cannot be evaluated for a line has the value 0 where the place that uses it has no way to say so in the model (the program panics or prints an error there). A number that cannot be printed (`none` of `printF`) is printed as nothing. The random comparator is an error. The columns that a formula in a key of `join` uses are a parameter.
* `Locks`: The locks of the tables of makers: `/repo/src/agg.rs` 1270-1492, `/repo/src/comp.rs` 855-1140, `/repo/src/matcher.rs` 1612-1967, `/repo/src/trans.rs` 267-426 and `/repo/src/textgen.rs` 286-417. A function is the list of the locks it takes and gives back. A maker is called while the lock of its table is held, and some makers look for makers in other tables. Simplifications. What the functions do between taking and giving back is left out; that a call ends early with an error only makes its list shorter by pairs. Makers pushed by a user are taken to be like the standard ones. A thread that holds a lock does not panic.
* `Match`: Matchers of `/repo/src/matcher.rs`. Simplifications. Texts are bytes; a `str` is its UTF-8 bytes. What the standard library does with Unicode is left open (`StrOps`), as are user regular expressions, comparators made from a specification, and the files read (`MEnv`). Matchers that users of the library register are left out: the table is the one of `init`. Messages on stderr are left out.
* `Num`: Formats of numbers, `/repo/src/num.rs`. Simplifications. Numbers are integers, as counts and sums of counts are; they are printed exactly, which for f64 holds up to 2^53. Products and quotients in the formats with powers are exact. Texts are ASCII.
* `Ops`: Model of the comparison operators and range checks of `/repo/src/util.rs` and of the thresholds and determiners of `/repo/src/matcher.rs` and `/repo/src/num.rs`. Simplifications. Messages on stderr are left out. The regular expressions of `RangeSpec` are written out as the backtracking search they stand for: alternatives in order, leftmost match. Specifications are bytes; the characters that matter are ASCII. The fraction of a threshold is an exact fraction `p/q` (every `f64` between 0 and 1 is one) and the arithmetic of `src/num.rs` is exact, where the code rounds each quotient to an `f64`.
* `Paste`: `ScopedValues`, `/repo/src/column.rs` 379-525, and the `paste` command, `/repo/src/bin/cdx/paste_main.rs`. Simplifications. Rows and default values are written with tabs, as in the code, and the header in the default text mode. The text of the error about files of different lengths is left out.
* `PasteMain`: The `paste` command from its options, `/repo/src/bin/cdx/paste_main.rs`. Simplifications. Options come as pairs of a name and a value, as `args::parse` gives them. The others are those of `Model/Paste.lean`.
* `Program`: The program as a whole: `/repo/src/bin/cdx/main.rs` 51-82, `/repo/src/bin/cdx/cdxmain.rs` 27-44 and the mains of all commands but `tooltest`, from the words of the command line to what is written to files and the standard output. Simplifications. The words have been taken apart by clap (`Tok`). All files of the command line are read first: that a file is not there is an error also if the command would have failed earlier, or ended without reading it. What a command writes before it fails is lost. The lines of help texts are not modelled. What is written to the standard error is not modelled. `tooltest`, which runs other programs, is in `Verif.Model.ToolTest`.
* `Reader`: Reading lines and the `Reader` with lookback. Models `/repo/src/util.rs` 375-450, 1293-1336 and 1481-1684.
* `Regex`: The fixed regular expressions of the matchers `float`, `integer`, `number` and `ip` (`/repo/src/matcher.rs` 1643-1664). The regex crate is not modelled as such: an anchored expression is a term of `RE`, and `is_match` is membership in its language, decided by derivatives. Patterns given by the user to `regex` stay opaque (see `Model/Match`).
* `Registry`: Tables of makers and aliases: `/repo/src/agg.rs` 1345-1439, `/repo/src/comp.rs` 910-1007, `/repo/src/matcher.rs` 1769-1832, `/repo/src/trans.rs` 318-381 and `/repo/src/textgen.rs` 321-382, which are the same code for different makers. Simplifications. A maker is any value. The tables are those of one thread; locks are left out. `init` is the first part of the history.
* `S3`: Reading an object of S3: `S3Reader` of `/repo/src/util.rs` 1028-1098, and how `get_reader` (1242-1261) sees it. The object arrives in pieces, the body is their list; a piece that cannot be fetched is `none`. The connection itself (1036-1051) is not modelled. A buffered reader asks again and again with buffers of any size and stops when it gets nothing.
* `Sample`: The `sample` command, `/repo/src/bin/cdx/sample_main.rs`. Simplifications. The options are given parsed, apart from the texts of ranges and loops; without options the number of lines is the height of the screen, which is left out. Files can be read.
* `SampleMain`: The `sample` command from its options, `/repo/src/bin/cdx/sample_main.rs`. Simplifications. Options come as pairs of a name and a value, as `args::parse` gives them. The height of the screen is a parameter.
* `Sampler`: Smooth sampling. Models `/repo/src/sampler.rs`. The floating point arithmetic of `collapse` is modelled exactly, in integers. The sampler never looks at the lines, so they are of any type `α`; `z` stands for the empty line.
* `SelfComp`: Tests for equality with a stored value, and the packed `Item`: `/repo/src/comp.rs` 36-47, 360-377, 454-470, 566-582, 1170-1236, 1435-1472, 1582-1830 and 1917-1932. Simplifications. `toF64` is the conversion of texts to numbers. The method `random` is left out.
* `Settings`: The command line: text formats (`/repo/src/util.rs` 36-66, 93-112, 180-194, 274-336), settings common to all commands (`/repo/src/bin/cdx/globals.rs`), arguments (`/repo/src/bin/cdx/args.rs`), choosing the command (`/repo/src/bin/cdx/main.rs`, `cdxmain.rs`), the tables of options of all commands, and the options that have a text of their own (`binsearch_main.rs`, `cat_main.rs`, `join_main.rs`). Simplifications. The library that takes the command line apart (clap) is not modelled: a command line is the list of flags, options with value and positional arguments it finds, numbered as it numbers them. It rejects unknown names and values outside a given list of words before this code runs. What help functions print is not modelled. Words are compared byte by byte without case (`equal_insens_quick` differs outside ASCII).
* `Sort`: Sorting and merging. Models `/repo/src/sort.rs`. Simplifications: `binary_heap_plus::BinaryHeap` and the stable sort of std are outside the repository. Popping from the heap is a parameter `pick` that says which of the equally small entries comes out; the theorems hold for every `pick` that returns a smallest entry. `sort_by` is `stableSort`, an insertion sort: std's is another algorithm, but for a total preorder there is only one stable result (otherwise std leaves the result open). How many bytes each `read` delivers is a parameter. A file that is being merged is its header and the list of its unread lines, the first being the current one; by C10 this is what the `Reader` shows. Temporary files and output are byte strings; I/O errors are not modelled. Resolving column names (`cmp.lookup`) is a parameter.
* `SortAlt`: The alternate sort, `/repo/src/sort.rs` 631-715, and the `sort` command, `/repo/src/bin/cdx/sort_main.rs`. A part `&mut s[a..b]` that is handed to a call is cut out, changed and put back. `none` is a panic or, for the arguments called fuel, a recursion or loop that has not ended. Simplifications. The comparison is a function of two items (`comp_items` has no effect on the comparators but to use their scratch space). The options are given parsed, as names with values (C125); what is written to stderr is left out.
* `SortFormula`: `sort` with formulas among its keys (`src/bin/cdx/sort_main.rs`, `LineCompExpr` in `src/comp.rs` 1834-1932). Simplifications. `--check` and `--merge` never look up the columns of the keys, so that a formula has no program there and evaluating it panics (`src/expr.rs` 610-636); these are refused here. The random order is refused, too. A formula that panics counts as 0 (C35 says that accepted formulas do not panic).
* `Tabs`: Fitting a table to the screen and transposing a table. Models `/repo/src/tabs.rs` and `/repo/src/transpose.rs`. Files are opened in the default text mode. The widths of strings and cutting strings to a width are those of the crates `unicode_width` and `unicode_truncate`; they are parameters here (`Glyphs`). Text is taken to be valid UTF-8 (`from_utf8_lossy` changes nothing then).
* `TabsMain`: The commands `tabs` and `transpose`: `/repo/src/bin/cdx/tabs_main.rs` and `/repo/src/bin/cdx/transpose_main.rs`. Files are pairs of a name and a content, opened in the default text mode. What is written is a list of lines, each of them followed by a newline. The empty line written to the error output by `--end` is not modelled. If a later file panics, what was written before it is lost here.
* `Text`: Text functions. Models `/repo/src/text.rs` 22-37, 95-113, 217-303, 535-554, 624-674, `/repo/src/num.rs` 261-337, `/repo/src/util.rs` 476-512, 2378-2409, `/repo/src/trans.rs` 20-40 and `/repo/src/matcher.rs` 375-438. The `Text` trait is implemented for `str` (characters) and `[u8]` (bytes); functions that only use the trait are modelled over an arbitrary character type.
* `TextLine`: Columns of a line: splitting, writing and single-column extraction. Models `/repo/src/util.rs` 470-687 and `/repo/src/column.rs` 89-103.
* `TextNum`: Numbers in texts, `/repo/src/text.rs` 115-215, 475-492, 675-752. Simplifications. Floating-point numbers are rational numbers, so sums and products are exact, there are no infinities, and the two zeros are equal. The exponent is an `i32`; an overflow is a panic.
* `Threads`: The tables of makers, used by several threads: `/repo/src/agg.rs` 1270-1492, `/repo/src/comp.rs` 855-1107, `/repo/src/matcher.rs` 1612-1967, `/repo/src/trans.rs` 267-426 and `/repo/src/textgen.rs` 286-417. Each table is behind a lock of its own, which is taken for one look or one change at a time. So a call consists of steps, each of which is one section under a lock, and the steps of different threads come in any order. Simplifications. A maker is any value. The tables of one module are one `Registry`; the second table of `src/agg.rs` (counters) and of `src/comp.rs` (comparators of lines) are left out. A failed call has no effect and the thread goes on.
* `Thresh`: Texts of determiners with thresholds, `/repo/src/matcher.rs` 142-167 and 244-275. Simplifications. A fraction is kept as the exact value of the double that was read. `libm::exp10`, used to read exponents, is a parameter.
* `ToolTest`: Test files and the `tooltest` command: `/repo/src/tooltest.rs` and `/repo/src/bin/cdx/tooltest_main.rs`. Simplifications. Messages on stderr are left out. The temporary directory is a list of files with their contents, without directories in it; the names of files in a test are taken to be names in this directory. Running a program is a parameter, from the words of the command, the standard input and the directory to the exit status (none for a signal), both outputs and the directory afterwards. A test file is a text; reading it cannot fail.
* `Trans`: Transforms of values, `/repo/src/trans.rs`. Simplifications. Texts are bytes; what std does with Unicode is left open (`TransOps`). Base64 is the one of RFC 4648 that `general_purpose::STANDARD` of the base64 crate implements: padding is written and required, and unused bits must be zero. Transforms that users of the library register are left out. No transform of the table uses the line it is given.
* `Uniq`: The `uniq` command without aggregation, `/repo/src/bin/cdx/uniq_main.rs`. Simplifications. Comparators are given with their columns looked up. The header is written in the default text mode. The delimiter put between count and line is below 128 (`delim as char` is written as UTF-8).
* `UniqAgg`: Aggregators of lines (`/repo/src/agg.rs`), and the `uniq` command with aggregation, `/repo/src/bin/cdx/uniq_main.rs`. Simplifications. The expressions of aggregators are a parameter, `mkExpr`: for the text after `expr,` it gives the first value and, for the names of the columns, how a line changes the value. Comparators are given with their columns looked up. The printing of numbers is a parameter, `prn`. Delimiters are ASCII. When the lines are not split, the columns of a line are those of an older one; a column that ends after the line is cut off, where the code would panic.
* `UniqMain`: The `uniq` command from its options, `/repo/src/bin/cdx/uniq_main.rs`. Simplifications. Options come as pairs of a name and a value, as `args::parse` gives them. `compiles` tells whether an expression of a key can be compiled and `eval` what it computes. The random comparator is not modelled; a key with it is an error.
* `Utf8`: What the code does with `str`: reading a header as a string, the columns of a header, made-up headers, and names of columns. The decoder of std is here too: it is what `from_utf8` and `from_utf8_lossy` do. A character is its code; the classes of Unicode (`is_alphabetic`, `is_alphanumeric`) are parameters, a character is written as in `Verif/Spec/Utf8.lean`.
* `Verbose`: Matching with explanations, clones of matchers, `copy` and the words for header modes: `/repo/src/matcher.rs` 44-106, 1076-1088, 1223-1294, 1449-1460 and 1532-1543, `/repo/src/util.rs` 1847-1866 and 2028-2037. Simplifications. What a matcher shows of itself (`show`) is a parameter. Standard error is the bytes written to it.
* `Verify`: The `verify` command, `/repo/src/bin/cdx/verify_main.rs`, and the check of `sort`, `/repo/src/bin/cdx/sort_main.rs` 54-76. Simplifications. What is written to stderr is left out. Keys are given made; for those of the options see `Model/VerifyMain.lean`. Files can be read.
* `VerifyMain`: The `verify` command from its options, `/repo/src/bin/cdx/verify_main.rs`. Simplifications. Options come as pairs of a name and a value, as `args::parse` gives them; so the names `or` and `fail`, which are handled but not declared, do not occur. `compiles` tells whether an expression of a key can be compiled and `eval` what it computes. The texts printed by `--show-const` and `--show-func` are left out. The random comparator is not modelled; a key with it is an error.
* `Wc`: The `wc` command, `/repo/src/bin/cdx/wc_main.rs`. Simplifications. The options are given parsed, apart from the texts of aggregators. The printing of numbers is a parameter, `prn`; `NumFormat.print` says what it does for integers. Delimiters are ASCII. Files can be read.
* `WcMain`: The `wc` command from its options, `/repo/src/bin/cdx/wc_main.rs`. Simplifications. Options come as pairs of a name and a value, as `args::parse` gives them. The others are those of `Model/Wc.lean`.

## What is not modelled

* `src/bin/cdx/args.rs`, `main.rs`, `globals.rs`: parsing of command lines (by `clap`), help and version texts.
* `src/tooltest.rs`, `tooltest_main.rs`: the test driver, which runs external programs.
* `src/textgen.rs`, `filegen_main.rs`: generators of random text, apart from what a property says.
* Constructors that only fill fields with defaults, `Debug`/`Display` texts, iterators that only pass on to a list.
* Messages on stderr, and texts of error messages.
* External crates: `regex` (only the fixed expressions of four matchers), `fs_err`, `flate2`, `clap`, `binary_heap_plus` (a choice
  among equal entries), `unicode_width`, `rand`.
* Concurrency: the program is sequential.

## Trusted base

Lean 4.33.0 kernel; at most the axioms `propext`, `Classical.choice` and `Quot.sound`, per theorem as below; the faithfulness of the
hand-written model, whose only tie to the code is the citation at each definition. There are no axioms of our own, no `sorry`, no
`native_decide` and no `bv_decide`. Mathlib is not imported.

### Axioms per theorem

The output of `#print axioms` for each theorem named in `MANIFEST.json`, grouped.

* none: C105_length, C108_any, C120_names, C122_status, C124_get, C13_refuted, C13_refuted_panic, C168_nested_init, C40_ord_ok, C40_invert, C40_invert_twice, C40_negations, C43_doubles_limit, C75_parse
* `Quot.sound`: C40_parse
* `propext`: C02_loops, C02_refuted, C03_ends, C03_refuted, C06_delim_n_not_escapable, C08_refuted, C08_refuted_quotes, C105_refuted_order, C105_refuted_equal, C108_usize_none, C108_isize_none, C109_find, C109_push_partial, C109_alias_partial, C11_refuted, C11_refuted_backslash, C11_refuted_skip, C112_first, C112_one_partial, C112_refuted, C116_width, C118_rest, C118_refuted_wide, C119_delim, C12_refuted, C12_refuted_strip, C12_refuted_require, C141_match, C141_text, C142_not_looked_up, C148_usable_partial, C158_refuted, C16_unescape_cases, C16_every_text_has_an_encoding, C169_refuted, C174_refuted, C174_accepts_partial, C175_copied, C175_error, C178_refuted, C182_refuted, C21_write3, C21_empty_writer, C22_stored, C22_nan, C22_refuted, C23_plus, C24_refuted, C27_first_decides, C27_stored, C27_set, C27_set_count, C27_set_single, C29_single, C32_refuted, C33_narrow, C35_refuted, C35_empty, C38_suffixes_partial, C38_refuted, C40_trichotomy, C41_refuted, C41_second_bound_ignored, C41_second_value_lost, C43_refuted, C48_utf8_partial, C50_assign_partial, C50_refuted, C51_counts, C65_refuted, C71_refuted, C72_refuted, C73_one_partial, C73_two, C73_three, C73_refuted, C74_refuted, C74_double_refuted, C76_chars, C80_whole_text, C85_none, C86_sum, C88_no_digits, C94_unique, C94_parse_partial, C94_ints, C94_get
* `Quot.sound`, `propext`: C01_refuted, C04_split_join, C04_join_split, C04_slices_in_bounds, C05_get_col_agrees, C07_row_is_one_line, C07_plain_round_trip, C105_ascii, C105_swap, C105_refuted, C106_decompose, C108_usize_trailing, C108_isize_trailing, C109_modifier, C109_order, C109_unique, C110_files, C112_eq_iff, C112_parts_partial, C117_expr_lost, C118_format_partial, C124_context, C124_parts, C124_filename, C124_name_alone, C126_round, C126_output_partial, C126_also, C136_select_partial, C14_glob_sound, C14_glob_exact_no_star, C14_glob_terminates, C141_same, C142_files, C148_underscore, C151_names, C160_refuted, C166_never_wrong_partial, C166_finishes, C167_in_use_partial, C168_no_deadlock, C168_all_free, C17_chomp, C17_chomp_idempotent, C170_refuted, C170_mark, C170_refines, C171_refuted, C18_exceptions, C18_refuted, C180_longest, C180_ascii, C181_agree, C183_split, C189_count, C19_refuted, C191_number, C20_unique, C20_lost, C21_write2, C21_identity, C21_write, C21_writer, C23_refuted, C24_swap_partial, C24_refl_partial, C25_list, C25_numeric_disagrees, C25_refuted, C25_split, C26_refuted, C27_eq_iff, C27_preorder, C27_reverse_one, C30_refuted_unique, C30_refuted_lost_line, C30_refuted_error, C30_refuted_long_line, C31_default_columns, C31_refused, C31_empty, C32_two, C34_refuted, C35_nonempty, C35_no_panic, C36_refuted, C39_to_usize, C39_decompose, C39_whole, C40_numbers, C40_parse_iff, C41_made, C41_buff_made, C44_prefix, C44_suffix, C44_order, C46_limits, C47_mean_partial, C48_words_partial, C48_blank, C48_idempotent, C48_cover, C48_utf8_idempotent, C48_refuted, C51_header_only, C51_equivalence, C54_sorted, C55_rows_unique, C57_lines, C57_texts, C57_all, C59_picked, C62_head, C62_tail, C62_head_path, C62_tail_path, C63_prefix, C63_suffix_partial, C63_chars, C63_refuted, C64_refuted, C70_ragged, C72_bracket_partial, C73_max_min, C73_fmax, C73_fmin, C73_copysign, C74_factorial_partial, C75_symbols_partial, C75_names, C75_names_range, C75_trail_symbols, C75_trail_symbols_range, C75_trail_start, C75_trail_names, C75_trail_names_range, C75_or_equal_lost, C75_refuted, C75_as_written, C75_trail_as_written, C77_integer, C77_number, C77_float, C77_nested, C85_words, C85_bytes, C86_asum, C86_extremes, C88_overflow, C92_count_column, C92_header_iff, C94_last, C95_sort, C98_read_partial, C98_round, C98_refuted, C99_short_partial
* `Classical.choice`, `Quot.sound`, `propext`: C01_total_partial, C01_binsearch_exact, C01_offsets, C02_terminates_partial, C03_stepping_partial, C03_context_partial, C06_backslash_round_trip, C08_quote_round_trip_partial, C09_lossless, C09_each_line, C09_quote_even, C10_lookback, C10_lookback_new_open, C100_integers, C100_refuted, C100_doubles_partial, C101_powers, C101_doubles, C102_format_partial, C102_format_columns_partial, C102_refuted, C103_columns_partial, C103_rows_partial, C103_refuted, C103_refuted_long, C103_refuted_total, C104_read_back_partial, C104_refuted, C104_refuted_stderr, C104_literal, C105_cmp_partial, C105_equal_iff, C106_value, C106_whole_partial, C106_refuted, C106_refuted_more, C106_refuted_overflow, C107_read_back, C107_powers, C107_refuted, C107_plain_partial, C108_float_partial, C108_refuted, C109_refuted_alias, C109_refuted_push, C109_refuted, C109_comp_words, C11_location_partial, C110_method_partial, C110_unknown, C110_line_partial, C110_expr, C110_short, C110_refuted, C110_refuted_case, C110_columns, C111_refuted, C111_refuted_strict, C111_only_name_partial, C112_equal, C113_table, C113_read, C113_read_plain, C114_grid, C114_count_partial, C114_decimal_partial, C114_unknown, C114_alias, C114_refuted, C114_refuted_digits, genMake_words, C115_command_partial, C115_rows_partial, C115_refuted, C115_refuted_delim, C116_header, C116_count, C117_column, C117_expr, C117_replace_partial, C117_refuted, C117_comma, C118_every, C118_refuted, C119_formats, C119_output_partial, C119_refuted, C12_policy_partial, C12_exceptions_exact, C12_malformed_rejected, C120_order, C121_handled_partial, C121_stops, C121_pad, C121_refuted, C121_global, C122_choose, C122_other, C122_all, C123_tri, C123_dups, C123_end, C123_pad, C125_full, C125_last_partial, C125_parts, C125_refuted, C125_number, C126_refuted, C127_lines_partial, C127_table_partial, C127_bare_partial, C127_refuted, C127_refuted_header, C128_table_partial, C128_refuted, C128_unnamed_refuted, C129_concat_partial, C129_headers_partial, C129_refuted, C13_glob_exact_partial, C130_parse, C130_value_partial, C130_refuted, C131_group_partial, C131_refuted, C132_width_partial, C132_refuted, C132_none_refuted, C133_cut_partial, C133_table_partial, C133_refuted, C134_read, C134_push_partial, C134_refuted, C135_name_partial, C135_number_partial, C135_refuted, C135_composite_refuted, C136_lookup, C136_refuted, C137_alt_sort, C137_alt_sort_on, C137_do_sort, C138_any_comparison, C139_options, C139_check_merge, C139_alt_sort, C139_alt_merge, C14_single_characters, C140_table_sort, C140_unknown_column, C140_key_text, C141_value, C141_value_line, C141_row, C141_unknown, C141_column, C141_used, C142_refuted, C142_keeps_partial, C142_same_partial, C143_total, C143_replaced, C143_unknown, C143_unclosed, C143_call, C144_fold, C144_header_between, C145_places, C145_format, C146_lines, C146_options, C147_refuted, C147_safe_partial, C148_refuted, C149_refuted, C149_places_partial, C15_find_close, C15_find_close_fails, C150_refuted, C150_sep_partial, C150_table_partial, C151_refuted, C151_meaning_partial, C151_only_partial, C151_list_partial, C152_options, C153_refuted, C153_fits_partial, C153_options, C154_share, C154_one, C155_refuted, C155_whole_partial, C156_refuted, C156_title_partial, C157_header, C157_plain, C157_options, C158_pieces_partial, C159_path, C159_other, C160_gzip_partial, C161_open, C162_refuted, C162_passes_partial, C162_prepared, C162_keep, C162_kept, C163_refuted, C163_alone_partial, C163_clean, C163_verdict, C164_report, C165_refuted, C165_words_partial, C166_refuted, C166_first_alone_partial, C167_refuted, C169_as_compared, C169_values_partial, C170_line_partial, C171_texts_partial, C171_other_order, C172_refuted, C172_answers_partial, C172_count_partial, C173_refuted, C173_inverted_partial, C174_remade_partial, C174_remake, C176_words, C177_header, C177_string, C178_columns_partial, C178_names_partial, C178_outside, C179_refuted, C179_high, C179_text_partial, C18_partial, C18_translator, C18_single, C181_refines, C182_literal_partial, C183_once, C183_number, C183_bracket, C183_trans, C184_refuted, C184_others, C184_comp_partial, C184_merge_partial, C184_range_partial, C184_bracket_partial, C184_set, C185_refuted, C185_whole_partial, C185_near_partial, C185_error_partial, C186_refuted, C186_whole_partial, C186_near_partial, C187_refuted, C187_refuted_order, C187_iff_partial, C187_range_partial, C188_refuted, C188_refuted_compare, C188_zeros_partial, C188_whole_partial, C189_refuted, C189_never, C189_words, C189_fraction_partial, C189_plain_partial, C19_partial, C190_functions, C190_arity, C190_constants, C190_determiners, C190_formats, C191_refuted, C191_partial, C192_refuted, C192_comma, C192_partial, C193_refuted, C193_partial, C193_order, C194_refuted, C194_partial, C194_text_partial, C195_flags, C195_order, C196_exponent, C196_plain, C196_seventeen, C196_others, C197_refuted, C197_near_partial, C198_fixed, C198_exponent, C198_zero, C199_options, C199_order, C199_runs_partial, C20_partial, C20_refuted, C200_options_partial, C200_verified_partial, C200_stops, C200_refuted, C201_options, C201_copies, C201_rows_partial, C201_refuted, C202_options, C202_order, C202_shortcuts, C202_counts_partial, C202_refuted, C202_columns_partial, C202_format, C203_options, C203_once, C203_lines_partial, C203_default_partial, C203_refuted, C204_options, C204_unused, C204_pasted_partial, C204_refuted, C205_options, C205_order, C206_join, C206_errors, C206_whole, C206_expr, C207_sort_join, C208_table, C209_sort_uniq, C21_select, C210_verify, C210_sorted, C211_paste, C211_cut_paste, C212_refuted, C212_merge_partial, C212_parts_partial, C213_search_partial, C213_found_partial, C213_refuted, C214_rows, C215_twice, C215_invert, C215_sort, C215_search, C216_keys, C216_again, C217_sort, C217_grep, C218_words, C219_output, C219_join, C22_preorder_partial, C22_meaning, C22_ip_value, C22_equal_consistent, C220_sort, C220_verify, C220_cut, C220_grep, C220_uniq, C221_paste, C221_merge, C221_search, C221_join, C222_cut, C222_grep, C222_cat, C222_cat_rows, C222_wc, C222_wc_format, C222_calc, C222_filegen, C222_sample, C222_tabs, C222_transpose, C222_uniq, C222_sort, C222_check, C222_verify, C222_paste, C222_bin_options, C222_binsearch, C223_refuted, C223_cut_partial, C223_only_left_out, C223_fails, C223_transforms, C224_refuted, C224_calc_partial, C224_cut_partial, C225_grep, C226_refuted, C226_partial, C227_refuted, C227_refuted_method, C227_refuted_dot, C227_short, C227_partial, C228_uniq, C229_verify, C23_integers_partial, C23_leading, C230_sums, C231_groups, C232_totals, C233_counted, C234_unique, C234_verify, C235_sum, C235_order, C235_mean, C236_keys, C236_uniq, C237_missing, C238_sort, C238_order, C238_exact, C238_minus_zero, C239_numbers, C239_unique, C239_verify, C24_decimals_partial, C24_decimals_preorder_partial, C24_decimals_differ_partial, C24_decimals_value_partial, C24_fraction_ignored, C240_unknown, C240_both, C241_sort, C241_uniq, C242_sort, C242_exact, C243_numbers, C243_unique, C243_verify, C244_then, C245_cat, C245_sort, C245_decimals, C246_sort, C246_decimals, C25_text_column_partial, C25_length_column_partial, C25_ip_column_partial, C25_float_partial, C25_whole_line_partial, C25_equal_column_partial, C25_equal_float_partial, C25_reverse_lost, C25_ip_reverse_lost, C25_whole_line_all_equal, C26_key_order_partial, C26_monotone, C27_equal_agrees, C27_preorder_methods, C28_in_memory, C28_any_limit_partial, C28_succeeds_in_memory, C28_succeeds_one_file, C28_refuted, C29_tree, C29_tree_unique, C29_heap_partial, C29_heap_unique, C29_heap_tree, C29_preorder, C29_refuted, C30_keys_partial, C30_whole_line, C30_refuted, C31_join, C31_preorder, C31_repeated_keys, C31_header, C32_smooth_partial, C32_doubles_partial, C33_fit, C33_unique, C34_plain, C34_header, C34_twice_plain, C34_twice_partial, C35_value_partial, C35_total_partial, C36_postfix, C36_minimal, C36_unique, C36_text_partial, C37_fold, C37_value, C41_verbose_partial, C41_quiet, C41_quiet_equality_partial, C41_whole_line_end, C41_buff_ok, C41_quiet_both, C42_early, C42_line, C43_counts_partial, C43_swapped, C43_doubles_partial, C45_min, C45_max, C45_max_partial, C45_max_plain, C45_refuted, C46_exact, C46_merge_partial, C46_sort_uniq, C46_refuted, C46_refuted_limits, C47_refuted, C49_compose_partial, C49_spec, C49_spec_nonempty, C49_empty, C49_refuted, C51_runs_partial, C51_command_partial, C51_refuted, C51_refuted_quote, C51_refuted_quote_plain, C52_copy_partial, C52_copy_any_pad_partial, C52_pad_missing, C52_refuted, C52_refuted_joined, C53_exact_partial, C53_verify_partial, C53_refuted, C53_count, C54_check_partial, C54_refuted, C55_paste_partial, C55_headerless_partial, C55_refuted, C55_refuted_quote, C55_exact_writes, C56_partition, C56_selects, C57_lookup, C58_not_lines_partial, C58_not_ignored, C58_null_inverts, C58_refuted, C59_range_partial, C59_refuted, C59_refuted_header, C59_refuted_quote, C60_counts_partial, C60_rows, C60_refuted, C60_refuted_newline, C61_file_partial, C61_only_then, C61_content, C61_streams, C61_refuted, C64_byte_ranges_partial, C65_pass_through_partial, C66_with_header_partial, C66_refuted, C67_routing_partial, C67_refuted, C68_first_two_partial, C68_refuted, C69_even, C69_doubles, C70_show, C70_lines, C70_whole, C71_grammar_partial, C72_named, C74_double_partial, C76_plain, C76_case_partial, C76_comment_partial, C76_length, C76_glob_partial, C76_numbers, C76_refuted, C76_comment_refuted, C76_exact_utf8_refuted, C76_strings, C76_glob_strings_partial, C76_other_names, C77_octet, C77_ip, C78_file_exact_partial, C78_file_case_partial, C78_refuted, C78_fileexact_partial, C79_multi_partial, C79_refuted, C80_forms_partial, C80_set_lost, C80_whole_backslash, C80_refuted, C81_encode_total, C81_inverse, C81_shape, C82_alias_partial, C82_first, C82_bytes, C82_unknown, C82_list, C82_refuted, C83_clone, C84_case, C87_reset, C88_signed_partial, C88_suffix_partial, C88_refuted, C88_suffix_refuted, C88_trailing, C89_options_partial, C89_refuted, C90_names_partial, C90_alias, C90_pattern, C90_meaning, C90_refuted, C90_patterns, C90_counter, C91_one_run, C91_refuted, C93_numbered_partial, C93_refuted, C93_refuted_quote, C93_refuted_header, C94_refuted, C94_panic, C95_names_partial, C95_plain_partial, C95_refuted, C95_verify, C96_for_partial, C96_never_first, C96_refuted, C96_refuted_overflow, C97_sample_partial, C97_refuted, C98_refuted_dash, C99_refuted, C99_refuted_digits
