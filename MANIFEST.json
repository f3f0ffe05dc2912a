{"claims": [
  {"property": "C01", "status": "partial", "theorems": ["Cdx.C01_total_partial", "Cdx.C01_binsearch_exact", "Cdx.C01_offsets", "Cdx.C01_refuted"], "note": "exact whenever the search returns; it does not return when the value is less than an empty line that is the whole remaining range (proved)"},
  {"property": "C02", "status": "partial", "theorems": ["Cdx.C02_terminates_partial", "Cdx.C02_loops", "Cdx.C02_refuted"], "note": "terminates for every comparator unless the value is less than the empty slice and the buffer has an empty line; there it can loop for ever (proved)"},
  {"property": "C03", "status": "partial", "theorems": ["Cdx.C03_stepping_partial", "Cdx.C03_ends", "Cdx.C03_context_partial", "Cdx.C03_refuted"], "note": "stepping back from the end of a buffer without a final newline panics (proved); everything else holds"},
  {"property": "C04", "status": "proved", "theorems": ["Cdx.C04_split_join", "Cdx.C04_join_split", "Cdx.C04_slices_in_bounds"], "note": "plain mode, all delimiters and lines"},
  {"property": "C05", "status": "proved", "theorems": ["Cdx.C05_get_col_agrees"], "note": ""},
  {"property": "C06", "status": "proved", "theorems": ["Cdx.C06_backslash_round_trip", "Cdx.C06_delim_n_not_escapable"], "note": "second theorem shows the side condition on the delimiter is needed"},
  {"property": "C07", "status": "proved", "theorems": ["Cdx.C07_row_is_one_line", "Cdx.C07_plain_round_trip"], "note": ""},
  {"property": "C08", "status": "partial", "theorems": ["Cdx.C08_quote_round_trip_partial", "Cdx.C08_refuted", "Cdx.C08_refuted_quotes"], "note": "the full statement is false of the code and its negation is proved; the round trip holds under the stated restriction"},
  {"property": "C09", "status": "proved", "theorems": ["Cdx.C09_lossless", "Cdx.C09_each_line", "Cdx.C09_quote_even"], "note": ""},
  {"property": "C10", "status": "proved", "theorems": ["Cdx.C10_lookback", "Cdx.C10_lookback_new_open"], "note": ""},
  {"property": "C100", "status": "partial", "theorems": ["Cdx.C100_integers", "Cdx.C100_refuted", "Cdx.C100_doubles_partial"], "note": "Proved for integers, printed exactly. With doubles refuted: from 2^53 on the plain format writes the shortest digits, 2^60 is printed as 1152921504606847000. C100_doubles_partial: every whole double with a precision, and up to 2^53 without one."},
  {"property": "C101", "status": "proved", "theorems": ["Cdx.C101_powers", "Cdx.C101_doubles"], "note": "C101_powers for integers with exact quotients, C101_doubles for every finite double with the rounding of f64."},
  {"property": "C102", "status": "partial", "theorems": ["Cdx.C102_format_partial", "Cdx.C102_format_columns_partial", "Cdx.C102_refuted"], "note": "Refuted: if no aggregator is given, the format is applied before the default aggregator is added. Proved if any is given, and always with --columns."},
  {"property": "C103", "status": "partial", "theorems": ["Cdx.C103_columns_partial", "Cdx.C103_rows_partial", "Cdx.C103_refuted", "Cdx.C103_refuted_long", "Cdx.C103_refuted_total"], "note": "Refuted: a file with only a header hides the files after it; a line with more fields than columns panics; with totals only the header is longer than the row. Partial: exact output for any options and aggregators in plain mode without such files."},
  {"property": "C104", "status": "partial", "theorems": ["Cdx.C104_read_back_partial", "Cdx.C104_refuted", "Cdx.C104_refuted_stderr", "Cdx.C104_literal"], "note": "Refuted: names beginning with << are read as literal text, and -- is written to stderr. Proved for plain names and contents that are not compressed."},
  {"property": "C105", "status": "partial", "theorems": ["Cdx.C105_cmp_partial", "Cdx.C105_ascii", "Cdx.C105_equal_iff", "Cdx.C105_swap", "Cdx.C105_refuted", "Cdx.C105_refuted_order", "Cdx.C105_refuted_equal", "Cdx.C105_length"], "note": "Refuted: lengths are compared before lowering; with the Kelvin sign neither order nor equality is transitive. Proved where every character keeps its length, in particular for ASCII."},
  {"property": "C106", "status": "partial", "theorems": ["Cdx.C106_value", "Cdx.C106_decompose", "Cdx.C106_whole_partial", "Cdx.C106_refuted", "Cdx.C106_refuted_more", "Cdx.C106_refuted_overflow"], "note": "Refuted: a text without any digit is accepted, and a long exponent overflows. Partial: exact characterisation of what is accepted, with values in rational numbers; for the rounding of f64 see C185."},
  {"property": "C107", "status": "partial", "theorems": ["Cdx.C107_read_back", "Cdx.C107_powers", "Cdx.C107_refuted", "Cdx.C107_plain_partial"], "note": "C107_read_back and C107_powers with exact arithmetic, for integers below 2^1024. With doubles refuted: the default format prints 1148 as 1.148e3, which is read as 1148.0000000000002. C107_plain_partial: without an exponent every whole number up to 2^53 is read back as the same double. See C197 for others."},
  {"property": "C108", "status": "partial", "theorems": ["Cdx.C108_usize_trailing", "Cdx.C108_usize_none", "Cdx.C108_isize_trailing", "Cdx.C108_isize_none", "Cdx.C108_float_partial", "Cdx.C108_any", "Cdx.C108_refuted"], "note": "Proved for usize and isize. Refuted for floats: a sign alone counts as a number. Partial for floats: right for texts that begin with a number, and for those that do not begin with any part of one."},
  {"property": "C109", "status": "partial", "theorems": ["Cdx.C109_find", "Cdx.C109_push_partial", "Cdx.C109_alias_partial", "Cdx.C109_modifier", "Cdx.C109_order", "Cdx.C109_unique", "Cdx.C109_refuted_alias", "Cdx.C109_refuted_push", "Cdx.C109_refuted", "Cdx.C109_comp_words"], "note": "Exact meaning of every name after any calls. Refuted: an alias of an alias makes nothing, and a maker pushed under the name of an alias is not reached. Partial: right if the name is no alias."},
  {"property": "C11", "status": "partial", "theorems": ["Cdx.C11_location_partial", "Cdx.C11_refuted", "Cdx.C11_refuted_backslash", "Cdx.C11_refuted_skip"], "note": "false of the code for open(), for backslash mode and for header mode Skip (proved); exact for new_open in plain mode"},
  {"property": "C110", "status": "partial", "theorems": ["Cdx.C110_method_partial", "Cdx.C110_unknown", "Cdx.C110_line_partial", "Cdx.C110_expr", "Cdx.C110_short", "Cdx.C110_files", "Cdx.C110_refuted", "Cdx.C110_refuted_case", "Cdx.C110_columns"], "note": "Refuted: the aliases num and len are not known in capitals, though all other names are. Proved for every other specification."},
  {"property": "C111", "status": "partial", "theorems": ["Cdx.C111_refuted", "Cdx.C111_refuted_strict", "Cdx.C111_only_name_partial"], "note": "Refuted: comparators of values ignore rev and the words about junk. Partial: only the name counts."},
  {"property": "C112", "status": "partial", "theorems": ["Cdx.C112_first", "Cdx.C112_eq_iff", "Cdx.C112_equal", "Cdx.C112_one_partial", "Cdx.C112_parts_partial", "Cdx.C112_refuted"], "note": "Order and equality proved. Refuted: with several comparators a stored value must have as many parts as there are comparators, each compared with the whole other value. Proved for one comparator; with several the answer is exact."},
  {"property": "C113", "status": "proved", "theorems": ["Cdx.C113_table", "Cdx.C113_read", "Cdx.C113_read_plain"], "note": "Random choices, expressions and the normal distribution are parameters."},
  {"property": "C114", "status": "partial", "theorems": ["Cdx.C114_grid", "Cdx.C114_count_partial", "Cdx.C114_decimal_partial", "Cdx.C114_unknown", "Cdx.C114_alias", "Cdx.C114_refuted", "Cdx.C114_refuted_digits", "Cdx.genMake_words"], "note": "Refuted: count adds line and start before it subtracts one, so the last possible number fails; decimal with 20 digits overflows. Proved otherwise. The alias minimum stands for a name that does not exist."},
  {"property": "C115", "status": "partial", "theorems": ["Cdx.C115_command_partial", "Cdx.C115_rows_partial", "Cdx.C115_refuted", "Cdx.C115_refuted_delim"], "note": "Refuted: if no key needs columns, lines after the first are not split and aggregators see no columns, or those of an older line; without a header and with a delimiter other than tab it panics. Proved for plain files, keys with columns and distinct valid names."},
  {"property": "C116", "status": "proved", "theorems": ["Cdx.C116_header", "Cdx.C116_width", "Cdx.C116_count"], "note": "Names and counts; the texts of numbers are a parameter."},
  {"property": "C117", "status": "partial", "theorems": ["Cdx.C117_column", "Cdx.C117_expr", "Cdx.C117_replace_partial", "Cdx.C117_expr_lost", "Cdx.C117_refuted", "Cdx.C117_comma"], "note": "Refuted: LineAgger::new passes the word prefix or append on as the name of the new column. Proved for replace and for the functions uniq uses. An expression in place of a column is never shown."},
  {"property": "C118", "status": "partial", "theorems": ["Cdx.C118_format_partial", "Cdx.C118_rest", "Cdx.C118_every", "Cdx.C118_refuted", "Cdx.C118_refuted_wide"], "note": "Refuted: characters after the fifth are ignored, and a character outside ASCII stands for the low byte of its number. Proved for texts of at most five ASCII characters."},
  {"property": "C119", "status": "partial", "theorems": ["Cdx.C119_formats", "Cdx.C119_output_partial", "Cdx.C119_delim", "Cdx.C119_refuted"], "note": "Refuted: what --text-out leaves out is that of the default format, not that of --text-in. Proved if the text is complete or the input format is the default one. The library that takes the command line apart is not modelled."},
  {"property": "C12", "status": "partial", "theorems": ["Cdx.C12_policy_partial", "Cdx.C12_exceptions_exact", "Cdx.C12_malformed_rejected", "Cdx.C12_refuted", "Cdx.C12_refuted_strip", "Cdx.C12_refuted_require"], "note": "the documented policy holds except in the characterised situations, where the code provably departs from it"},
  {"property": "C120", "status": "proved", "theorems": ["Cdx.C120_order", "Cdx.C120_names"], "note": "From the pieces of the command line as clap numbers them."},
  {"property": "C121", "status": "partial", "theorems": ["Cdx.C121_handled_partial", "Cdx.C121_stops", "Cdx.C121_pad", "Cdx.C121_refuted", "Cdx.C121_global"], "note": "Refuted: binsearch --sub-delim, uniq --agg-help, verify --report and verify --show-matchers are declared but have no branch and panic. Proved for command lines without these four."},
  {"property": "C122", "status": "proved", "theorems": ["Cdx.C122_choose", "Cdx.C122_status", "Cdx.C122_other", "Cdx.C122_all"], "note": "What the commands do is a parameter."},
  {"property": "C123", "status": "proved", "theorems": ["Cdx.C123_tri", "Cdx.C123_dups", "Cdx.C123_end", "Cdx.C123_pad"], "note": "Case is that of ASCII."},
  {"property": "C124", "status": "proved", "theorems": ["Cdx.C124_context", "Cdx.C124_parts", "Cdx.C124_filename", "Cdx.C124_name_alone", "Cdx.C124_get"], "note": "A name alone leaves the number of parts at zero, so the column is empty for every file."},
  {"property": "C125", "status": "partial", "theorems": ["Cdx.C125_full", "Cdx.C125_last_partial", "Cdx.C125_parts", "Cdx.C125_refuted", "Cdx.C125_number"], "note": "Refuted: what a later option leaves out stays as an earlier one set it. Proved if the last option has all three parts."},
  {"property": "C126", "status": "partial", "theorems": ["Cdx.C126_round", "Cdx.C126_output_partial", "Cdx.C126_also", "Cdx.C126_refuted"], "note": "Refuted: an empty name of a column panics, as in 1. or a trailing comma. Proved for named columns without modifiers and matchers."},
  {"property": "C127", "status": "partial", "theorems": ["Cdx.C127_lines_partial", "Cdx.C127_table_partial", "Cdx.C127_bare_partial", "Cdx.C127_refuted", "Cdx.C127_refuted_header"], "note": "Refuted: keys cut lines at tabs whatever the separator of the file, and the header line takes part in the search with its columns moved by one. Proved for tab-separated files if the value is greater than what the header line has in that place, and for files without a header with any value; C127_lines_partial is for any keys and context."},
  {"property": "C128", "status": "partial", "theorems": ["Cdx.C128_table_partial", "Cdx.C128_refuted", "Cdx.C128_unnamed_refuted"], "note": "Refuted: a tab is written after the name of the file whatever the separator, and without a name for the column every file with a header is an error. Proved for tab-separated files and a named column."},
  {"property": "C129", "status": "partial", "theorems": ["Cdx.C129_concat_partial", "Cdx.C129_headers_partial", "Cdx.C129_refuted"], "note": "Refuted: files without a header are not checked, so they may be mixed with files that have one. Proved for the files that have a header."},
  {"property": "C13", "status": "partial", "theorems": ["Cdx.C13_glob_exact_partial", "Cdx.C13_refuted", "Cdx.C13_refuted_panic"], "note": "false of the code (proved): f.txt is not matched by *.txt, and a against *b panics; exact for patterns without a star or with one star at the end"},
  {"property": "C130", "status": "partial", "theorems": ["Cdx.C130_parse", "Cdx.C130_value_partial", "Cdx.C130_refuted"], "note": "Refuted: a letter such as k after a number without braces is read as part of the number (^1k is column 1000), and in quote mode each piece is quoted for itself. Proved if without braces the next byte can not belong to the number or name, for plain and backslash output."},
  {"property": "C131", "status": "partial", "theorems": ["Cdx.C131_group_partial", "Cdx.C131_refuted"], "note": "Refuted: the delimiter within a value is replaced by a space. Proved for values without the delimiter and newlines; for others splitting gives the values with spaces there."},
  {"property": "C132", "status": "partial", "theorems": ["Cdx.C132_width_partial", "Cdx.C132_refuted", "Cdx.C132_none_refuted"], "note": "Refuted: a group is not escaped for the output, so its delimiter may be that of the output, and a selection with no column left still writes an empty field. Proved for all wants with something selected, with values that can not be confused with the delimiter, groups with another delimiter and expressions without it."},
  {"property": "C133", "status": "partial", "theorems": ["Cdx.C133_cut_partial", "Cdx.C133_table_partial", "Cdx.C133_refuted"], "note": "Refuted: in quote mode the pieces of a composite are quoted one by one. Proved for plain and backslash output for any files; C133_table_partial is for tables with any separator."},
  {"property": "C134", "status": "partial", "theorems": ["Cdx.C134_read", "Cdx.C134_push_partial", "Cdx.C134_refuted"], "note": "Refuted: a rename is used only for a name that is already there, the first column keeps the old name. Proved: what push does in each case."},
  {"property": "C135", "status": "partial", "theorems": ["Cdx.C135_name_partial", "Cdx.C135_number_partial", "Cdx.C135_refuted", "Cdx.C135_composite_refuted"], "note": "Refuted: a column number beyond the line is accepted in files without a header, and in composites always. Proved for names, ranges that make no sense and column 0 in any file; for large numbers if the file has a header and headers are checked."},
  {"property": "C136", "status": "partial", "theorems": ["Cdx.C136_select_partial", "Cdx.C136_lookup", "Cdx.C136_refuted"], "note": "Refuted: write_sloppy writes no delimiter. Everything else is proved."},
  {"property": "C137", "status": "proved", "theorems": ["Cdx.C137_alt_sort", "Cdx.C137_alt_sort_on", "Cdx.C137_do_sort"], "note": "C137_do_sort is for the items and keys of the sorter, under the conditions of C28 for keys and lines."},
  {"property": "C138", "status": "proved", "theorems": ["Cdx.C138_any_comparison"], "note": ""},
  {"property": "C139", "status": "proved", "theorems": ["Cdx.C139_options", "Cdx.C139_check_merge", "Cdx.C139_alt_sort", "Cdx.C139_alt_merge"], "note": "Options are given parsed; keys that are expressions or random are not in this part of the model. That --alt-sort does nothing is what the code does (Sorter::new takes the default configuration)."},
  {"property": "C14", "status": "proved", "theorems": ["Cdx.C14_glob_sound", "Cdx.C14_glob_exact_no_star", "Cdx.C14_glob_terminates", "Cdx.C14_single_characters"], "note": ""},
  {"property": "C140", "status": "proved", "theorems": ["Cdx.C140_table_sort", "Cdx.C140_unknown_column", "Cdx.C140_key_text"], "note": "For data that fit into the buffer, columns separated by tabs, methods plain, lower, ip, length and equal, and a first key that is not reversed plain, lower or ip (C25 shows what is wrong with others)."},
  {"property": "C141", "status": "proved", "theorems": ["Cdx.C141_value", "Cdx.C141_value_line", "Cdx.C141_row", "Cdx.C141_same", "Cdx.C141_unknown", "Cdx.C141_match", "Cdx.C141_text", "Cdx.C141_column", "Cdx.C141_used"], "note": "For formulas as C36 writes them and without brackets (C143). Arithmetic and the reading of numbers are parameters. Constants hide columns of the same name."},
  {"property": "C142", "status": "partial", "theorems": ["Cdx.C142_refuted", "Cdx.C142_keeps_partial", "Cdx.C142_same_partial", "Cdx.C142_files", "Cdx.C142_not_looked_up"], "note": "The code violates the first part: names already known keep the columns of the first header (C142_refuted); C142_keeps_partial says exactly what happens, C142_same_partial when this is harmless. The second part, comparators with a formula for each file, is proved (C142_files). A comparator never looked up panics."},
  {"property": "C143", "status": "proved", "theorems": ["Cdx.C143_total", "Cdx.C143_replaced", "Cdx.C143_unknown", "Cdx.C143_unclosed", "Cdx.C143_call"], "note": "Lists without brackets in them. C143_call needs that no column has the name cN of one of the columns (C72)."},
  {"property": "C144", "status": "proved", "theorems": ["Cdx.C144_fold", "Cdx.C144_header_between"], "note": "For formulas as in C141."},
  {"property": "C145", "status": "proved", "theorems": ["Cdx.C145_places", "Cdx.C145_format"], "note": ""},
  {"property": "C146", "status": "proved", "theorems": ["Cdx.C146_lines", "Cdx.C146_options"], "note": "Plain lines. How numbers are written is a parameter."},
  {"property": "C147", "status": "partial", "theorems": ["Cdx.C147_refuted", "Cdx.C147_safe_partial"], "note": "An empty line, or one of parentheses only, crashes the program (C147_refuted); no other line does (C147_safe_partial)."},
  {"property": "C148", "status": "partial", "theorems": ["Cdx.C148_refuted", "Cdx.C148_usable_partial", "Cdx.C148_underscore"], "note": "All constants but pi and e have an underscore in their name, which no formula can contain."},
  {"property": "C149", "status": "partial", "theorems": ["Cdx.C149_refuted", "Cdx.C149_places_partial"], "note": "If the header is skipped its bytes are not counted, so all offsets are too small (C149_refuted). Otherwise it is so for all files (C149_places_partial). The names of location columns must differ from those of the file (otherwise the command fails)."},
  {"property": "C15", "status": "proved", "theorems": ["Cdx.C15_find_close", "Cdx.C15_find_close_fails"], "note": ""},
  {"property": "C150", "status": "partial", "theorems": ["Cdx.C150_refuted", "Cdx.C150_sep_partial", "Cdx.C150_table_partial"], "note": "The fields that are added are always followed by tabs (C150_refuted); proved for tables separated by tabs, and for all separators when no locations are added."},
  {"property": "C151", "status": "partial", "theorems": ["Cdx.C151_refuted", "Cdx.C151_meaning_partial", "Cdx.C151_only_partial", "Cdx.C151_list_partial", "Cdx.C151_names"], "note": "'name.' with an empty number is accepted (C151_refuted). All intended texts have their meaning, and nothing is accepted besides them but name. followed by what the reader of whole numbers accepts."},
  {"property": "C152", "status": "proved", "theorems": ["Cdx.C152_options"], "note": "The texts of patterns and locations are assumed to be accepted (C51, C151)."},
  {"property": "C153", "status": "partial", "theorems": ["Cdx.C153_refuted", "Cdx.C153_fits_partial", "Cdx.C153_options"], "note": "More than (lines - 1) / 2 files crash the program (C153_refuted: 13 files, 25 lines). Proved if there are three lines for each file. Files whose rows have more columns than the header crash it too (C70) and are excluded."},
  {"property": "C154", "status": "proved", "theorems": ["Cdx.C154_share", "Cdx.C154_one"], "note": "Names longer than the table is wide are left out, see C156."},
  {"property": "C155", "status": "partial", "theorems": ["Cdx.C155_refuted", "Cdx.C155_whole_partial"], "note": "Lines not needed by later files are not given to earlier ones (C155_refuted); proved if each file fits its share."},
  {"property": "C156", "status": "partial", "theorems": ["Cdx.C156_refuted", "Cdx.C156_title_partial"], "note": "A name longer than its table is wide is not written (C156_refuted); every other name is."},
  {"property": "C157", "status": "proved", "theorems": ["Cdx.C157_header", "Cdx.C157_plain", "Cdx.C157_options"], "note": "Files in the default text mode, complete lines. N = 0 is different (no line at all)."},
  {"property": "C158", "status": "partial", "theorems": ["Cdx.C158_refuted", "Cdx.C158_pieces_partial"], "note": "An empty piece is taken for the end of the object (C158_refuted). Proved for pieces that are not empty, with errors."},
  {"property": "C159", "status": "proved", "theorems": ["Cdx.C159_path", "Cdx.C159_other"], "note": ""},
  {"property": "C16", "status": "proved", "theorems": ["Cdx.C16_unescape_cases", "Cdx.C16_every_text_has_an_encoding"], "note": ""},
  {"property": "C160", "status": "partial", "theorems": ["Cdx.C160_refuted", "Cdx.C160_gzip_partial"], "note": "Only the first piece is looked at: if it has fewer than three bytes the object is not decompressed (C160_refuted). Proved if it has three."},
  {"property": "C161", "status": "proved", "theorems": ["Cdx.C161_open"], "note": "Names of output files have no white space and output texts are valid UTF-8, as the code demands. White space is that within ASCII."},
  {"property": "C162", "status": "partial", "theorems": ["Cdx.C162_refuted", "Cdx.C162_passes_partial", "Cdx.C162_prepared", "Cdx.C162_keep", "Cdx.C162_kept"], "note": "A file that is input and output is deleted before it is looked at, so the test cannot pass (C162_refuted). Proved if all files of the test have different names. The program is a parameter."},
  {"property": "C163", "status": "partial", "theorems": ["Cdx.C163_refuted", "Cdx.C163_alone_partial", "Cdx.C163_clean", "Cdx.C163_verdict"], "note": "A test is given up at the first missing output file, and the other files stay in the directory, where they fail the next test (C163_refuted). Proved if every earlier test came to a result; C163_verdict says when it does."},
  {"property": "C164", "status": "proved", "theorems": ["Cdx.C164_report"], "note": ""},
  {"property": "C165", "status": "partial", "theorems": ["Cdx.C165_refuted", "Cdx.C165_words_partial"], "note": "Two spaces make an empty argument (C165_refuted). Proved for single bytes of white space; dollar signs occur only in $TMP."},
  {"property": "C166", "status": "partial", "theorems": ["Cdx.C166_refuted", "Cdx.C166_never_wrong_partial", "Cdx.C166_first_alone_partial", "Cdx.C166_finishes"], "note": "init looks whether the table is empty and lets go of it, so a second thread finds a table half filled (C166_refuted). Proved: a thread never finds a wrong maker; once one thread has had its first answer, all find what there is; every call ends. A lock is held during one step."},
  {"property": "C167", "status": "partial", "theorems": ["Cdx.C167_refuted", "Cdx.C167_in_use_partial"], "note": "Another thread that is still in init replaces what was pushed (C167_refuted). Proved for tables in use."},
  {"property": "C168", "status": "proved", "theorems": ["Cdx.C168_no_deadlock", "Cdx.C168_all_free", "Cdx.C168_nested_init"], "note": "The calls and the locks they take are listed by hand from the code."},
  {"property": "C169", "status": "partial", "theorems": ["Cdx.C169_refuted", "Cdx.C169_as_compared", "Cdx.C169_values_partial"], "note": "The method length keeps 32 bits (C169_refuted). Agreement with the comparison holds for all comparators and values (C169_as_compared); with the values themselves for texts shorter than 2^32 bytes."},
  {"property": "C17", "status": "proved", "theorems": ["Cdx.C17_chomp", "Cdx.C17_chomp_idempotent"], "note": ""},
  {"property": "C170", "status": "partial", "theorems": ["Cdx.C170_refuted", "Cdx.C170_line_partial", "Cdx.C170_mark", "Cdx.C170_refines"], "note": "A line of 2^31 bytes or more uses the bit of the mark (C170_refuted); proved for shorter lines. The buffer has at most MAX_DATA bytes."},
  {"property": "C171", "status": "partial", "theorems": ["Cdx.C171_refuted", "Cdx.C171_texts_partial", "Cdx.C171_other_order"], "note": "Keys pad short texts with the byte 0 (C171_refuted). Proved for texts without it."},
  {"property": "C172", "status": "partial", "theorems": ["Cdx.C172_refuted", "Cdx.C172_answers_partial", "Cdx.C172_count_partial"], "note": "The verbose And asks all tests, one of which may panic after another has failed (C172_refuted). Proved if every test has an answer."},
  {"property": "C173", "status": "partial", "theorems": ["Cdx.C173_refuted", "Cdx.C173_inverted_partial"], "note": "The test is the wrong way round: successes are reported as failures (C173_refuted, C173_inverted_partial)."},
  {"property": "C174", "status": "partial", "theorems": ["Cdx.C174_refuted", "Cdx.C174_accepts_partial", "Cdx.C174_remade_partial", "Cdx.C174_remake"], "note": "A clone accepts everything (C174_refuted). Made again with the pattern it is the original (C174_remade_partial), which is all the code does with clones. What making a matcher again does with its flags."},
  {"property": "C175", "status": "proved", "theorems": ["Cdx.C175_copied", "Cdx.C175_error"], "note": "Writing succeeds."},
  {"property": "C176", "status": "proved", "theorems": ["Cdx.C176_words"], "note": ""},
  {"property": "C177", "status": "proved", "theorems": ["Cdx.C177_header", "Cdx.C177_string"], "note": "UTF-8 is written out in Spec/Utf8.lean; the decoder of std is modelled in Model/Utf8.lean and proved to accept exactly the strings."},
  {"property": "C178", "status": "partial", "theorems": ["Cdx.C178_refuted", "Cdx.C178_columns_partial", "Cdx.C178_names_partial", "Cdx.C178_outside"], "note": "A delimiter above 127 can be the first byte of a character of the header, which panics (C178_refuted). Proved for one-byte delimiters."},
  {"property": "C179", "status": "partial", "theorems": ["Cdx.C179_refuted", "Cdx.C179_high", "Cdx.C179_text_partial"], "note": "Every delimiter above 127 panics (C179_high). Proved for the others."},
  {"property": "C18", "status": "partial", "theorems": ["Cdx.C18_partial", "Cdx.C18_exceptions", "Cdx.C18_translator", "Cdx.C18_refuted", "Cdx.C18_single"], "note": "Exact for every header and every sequence of lists of selections as long as no number exceeds the header and no +0 occurs. Those two forms the code accepts and resolves to columns that do not exist (C18_exceptions), so the full claim is refuted. Matcher ranges (\u2026) and header names that are not plain names are outside the theorem. C18_single is the same for one column."},
  {"property": "C180", "status": "proved", "theorems": ["Cdx.C180_longest", "Cdx.C180_ascii"], "note": "Which characters are letters and digits is a parameter."},
  {"property": "C181", "status": "proved", "theorems": ["Cdx.C181_agree", "Cdx.C181_refines"], "note": "Letters are alphanumeric, as in std."},
  {"property": "C182", "status": "partial", "theorems": ["Cdx.C182_refuted", "Cdx.C182_literal_partial"], "note": "A text with U+FFFD also finds bad bytes (C182_refuted). Proved for texts without it and for all values."},
  {"property": "C183", "status": "proved", "theorems": ["Cdx.C183_once", "Cdx.C183_split", "Cdx.C183_number", "Cdx.C183_bracket", "Cdx.C183_trans"], "note": ""},
  {"property": "C184", "status": "partial", "theorems": ["Cdx.C184_refuted", "Cdx.C184_others", "Cdx.C184_comp_partial", "Cdx.C184_merge_partial", "Cdx.C184_range_partial", "Cdx.C184_bracket_partial", "Cdx.C184_set"], "note": "Each of the four can be cut inside a character (C184_refuted, C184_others). The partial theorems say exactly for which strings. C184_set is the set of columns in brackets."},
  {"property": "C185", "status": "partial", "theorems": ["Cdx.C185_refuted", "Cdx.C185_whole_partial", "Cdx.C185_near_partial", "Cdx.C185_error_partial"], "note": "Refuted: 0.3 is read as the double above the nearest one. Partial: exact for whole numbers up to 2^53 (with exponents 0 to 3 and suffixes); otherwise within a factor of (1 +- 2^-53)^(2 digits + 1), hence 2^-41 of the number for up to 300 digits on each side. Doubles are modelled bit by bit."},
  {"property": "C186", "status": "partial", "theorems": ["Cdx.C186_refuted", "Cdx.C186_whole_partial", "Cdx.C186_near_partial"], "note": "Refuted: 90071992547409929 is read as a greater number than 90071992547409930. Partial: whole numbers up to 2^53, and any decimals that differ by more than the error of reading."},
  {"property": "C187", "status": "partial", "theorems": ["Cdx.C187_refuted", "Cdx.C187_refuted_order", "Cdx.C187_iff_partial", "Cdx.C187_range_partial"], "note": "Refuted: 0e400 is zero times infinity; comparing it with a number depends on which comes first. Partial: exactly which texts are read as NaN, and none with an exponent from -323 to 308. libm::exp10 is a parameter, for the witness and the range it gives nearest doubles."},
  {"property": "C188", "status": "partial", "theorems": ["Cdx.C188_refuted", "Cdx.C188_refuted_compare", "Cdx.C188_zeros_partial", "Cdx.C188_whole_partial"], "note": "Refuted: 0.3e1 and 3. Partial: leading and trailing zeros and a plus sign never matter; whole numbers up to 2^53 with any exponent from 0 to 3 and any suffix."},
  {"property": "C189", "status": "partial", "theorems": ["Cdx.C189_refuted", "Cdx.C189_never", "Cdx.C189_words", "Cdx.C189_count", "Cdx.C189_fraction_partial", "Cdx.C189_plain_partial"], "note": "Refuted: the determiner is cut off at the first comma, so that no column set with a threshold is ever accepted. Partial: the determiners without threshold are accepted as meant; Determiner::new by itself reads all six words with threshold, counts exactly, fractions up to the error of reading a double."},
  {"property": "C19", "status": "partial", "theorems": ["Cdx.C19_partial", "Cdx.C18_exceptions", "Cdx.C19_refuted"], "note": "Proved for inverted ranges, unknown names, column 0 and counts from the end that are too large, whatever the other items are. Refuted for numbers beyond the header and for +0."},
  {"property": "C190", "status": "proved", "theorems": ["Cdx.C190_functions", "Cdx.C190_arity", "Cdx.C190_constants", "Cdx.C190_determiners", "Cdx.C190_formats"], "note": "The words are listed in Spec/Words.lean."},
  {"property": "C191", "status": "partial", "theorems": ["Cdx.C191_refuted", "Cdx.C191_number", "Cdx.C191_partial"], "note": "Refuted: a number that does not fit, followed by a non-digit or nothing, panics. Partial: twenty readers of options panic for no text that holds no such number."},
  {"property": "C192", "status": "partial", "theorems": ["Cdx.C192_refuted", "Cdx.C192_comma", "Cdx.C192_partial"], "note": "Refuted: not has no effect on names, and a comma after a pattern is an error. Partial: patterns written one after the other choose what they mean without not. Methods exact, prefix, suffix, infix."},
  {"property": "C193", "status": "partial", "theorems": ["Cdx.C193_refuted", "Cdx.C193_partial", "Cdx.C193_order"], "note": "Refuted: 9007199254740992, 1, 1 have another sum than 1, 1, 9007199254740992. Partial: whole numbers whose sizes add up to at most 2^53 have the exact sum and the rounded exact mean, in every order; doubles bit by bit."},
  {"property": "C194", "status": "partial", "theorems": ["Cdx.C194_refuted", "Cdx.C194_partial", "Cdx.C194_text_partial"], "note": "Refuted: 9007199254740992+1+1 is 9007199254740992. Partial: formulas in which every step is a whole number of size at most 2^53 are exact: operators but ^, comparisons, signs, factorials of positive numbers, max, min, if, fma, abs, fabs, floor, ceil, round, trunc, fmod, fmax, fmin, fdim. C194_text_partial is for the text of the formula, written in any way, through tokenizer, parser and compiler."},
  {"property": "C195", "status": "proved", "theorems": ["Cdx.C195_flags", "Cdx.C195_order"], "note": "C195_flags gives every setting from the words; C195_order: any order makes the same matcher. null has the effect of not, see C58."},
  {"property": "C196", "status": "proved", "theorems": ["Cdx.C196_exponent", "Cdx.C196_plain", "Cdx.C196_seventeen", "Cdx.C196_others"], "note": "The search of std for the digits is modelled by what it promises (shortest, then nearest); the theorems are about all decimals, not only those of the search."},
  {"property": "C197", "status": "partial", "theorems": ["Cdx.C197_refuted", "Cdx.C197_near_partial", "Cdx.C107_plain_partial"], "note": "Refuted: 0.3 is read as 0.30000000000000004. C197_near_partial: from 1e-270 to 1e299 the double read back differs by at most a 2^40th; C107_plain_partial: whole numbers up to 2^53 are read back exactly."},
  {"property": "C198", "status": "proved", "theorems": ["Cdx.C198_fixed", "Cdx.C198_exponent", "Cdx.C198_zero"], "note": "NearestInt states the rounding on rational numbers."},
  {"property": "C199", "status": "proved", "theorems": ["Cdx.C199_options", "Cdx.C199_order", "Cdx.C199_runs_partial"], "note": "C199_options: exactly which options are accepted and what they ask for. C199_order: the whole command. C199_runs_partial connects the options with C51. --agg-help is declared and panics, see C121. Expressions of keys are a parameter; the random comparator is not modelled."},
  {"property": "C20", "status": "partial", "theorems": ["Cdx.C20_unique", "Cdx.C20_partial", "Cdx.C20_lost", "Cdx.C20_refuted"], "note": "Uniqueness proved for all sequences, including renames. Loss of columns is excluded up to 10000 columns; beyond, the code drops a column silently (C20_lost, C20_refuted)."},
  {"property": "C200", "status": "partial", "theorems": ["Cdx.C200_options_partial", "Cdx.C200_verified_partial", "Cdx.C200_stops", "Cdx.C200_refuted"], "note": "Refuted: the declared option --report panics (and so does --show-matchers, C200_stops). C200_options_partial: exactly which options are accepted and what they ask for, without the two that print a list. C200_verified_partial: the whole command, except that nothing is asked of the columns of the last line (C53). Expressions of keys are a parameter; the random comparator is not modelled."},
  {"property": "C201", "status": "partial", "theorems": ["Cdx.C201_options", "Cdx.C201_copies", "Cdx.C201_rows_partial", "Cdx.C201_refuted"], "note": "Refuted: with numbers a file with only a header ends the command. C201_options: exactly which options are accepted and what they ask for. C201_copies: without options about numbers and lines the files are copied as C52 says. C201_rows_partial: the rows written in plain mode if no file has only a header and the matchers always have an answer."},
  {"property": "C202", "status": "partial", "theorems": ["Cdx.C202_options", "Cdx.C202_order", "Cdx.C202_shortcuts", "Cdx.C202_counts_partial", "Cdx.C202_refuted", "Cdx.C202_columns_partial", "Cdx.C202_format"], "note": "Refuted: an empty file has no row. C202_options: exactly which options are accepted and what they ask for. C202_order: only the order of the aggregators and the order of the values of each other option matter. C202_shortcuts: --lines and the like stand for their aggregators. C202_counts_partial: the rows written if every file ends in a newline. C202_columns_partial: the rows with --columns, if no file has a header only. C202_format: header and row in the format of the output."},
  {"property": "C203", "status": "partial", "theorems": ["Cdx.C203_options", "Cdx.C203_once", "Cdx.C203_lines_partial", "Cdx.C203_default_partial", "Cdx.C203_refuted"], "note": "C203_options: exactly which options are accepted and what they ask for. C203_once: a second option is an error. C203_lines_partial and C203_default_partial: the lines written in plain mode if all files have the same header and none has only a header, at most 2^24 lines are asked for by --sample, and the counts of --for do not overflow (C59, C96 and C97 have the counterexamples). Refuted: lines are counted from 0, the help text says from 1."},
  {"property": "C204", "status": "partial", "theorems": ["Cdx.C204_options", "Cdx.C204_unused", "Cdx.C204_pasted_partial", "Cdx.C204_refuted"], "note": "Refuted: with --last and --end late a file with only a header is a panic. C204_options: exactly which options are accepted and what they ask for. C204_unused: a rename that is not used is an error unless --rename-sloppy is given. C204_pasted_partial: what is written for files with headers in plain mode, if with --last and --end late every file has a line."},
  {"property": "C205", "status": "proved", "theorems": ["Cdx.C205_options", "Cdx.C205_order"], "note": "C205_options: exactly which options are accepted and what they ask for. C205_order: options of different names in any order."},
  {"property": "C206", "status": "proved", "theorems": ["Cdx.C206_join", "Cdx.C206_errors", "Cdx.C206_whole", "Cdx.C206_expr"], "note": "C206_join: what join writes, from the texts of the options and the contents of the files. How keys may be written is JoinKey.Text, how rows are combined is joinedRows and lonelyRows. C206_errors: fewer than two files, or columns of a file that is not there. C206_whole, C206_expr: how keys without columns compare."},
  {"property": "C207", "status": "proved", "theorems": ["Cdx.C207_sort_join"], "note": "From the texts of the options and the contents of the files. The first key may be reversed only if it compares lengths (C25 says why), no value holds a zero byte, and the tables fit in the buffer."},
  {"property": "C208", "status": "proved", "theorems": ["Cdx.C208_table"], "note": "From the texts of the options and the content of the file. Keys compare as plain, lower, length or ip text and may be reversed; no --agg and no --which."},
  {"property": "C209", "status": "proved", "theorems": ["Cdx.C209_sort_uniq"], "note": "Keys and tables as in C207 and C208; the last part compares with sort --unique with any fitting options."},
  {"property": "C21", "status": "proved", "theorems": ["Cdx.C21_write2", "Cdx.C21_identity", "Cdx.C21_select", "Cdx.C21_write", "Cdx.C21_write3", "Cdx.C21_writer", "Cdx.C21_empty_writer"], "note": "All writers (write, write2, write3, Writer). C21_empty_writer records that a writer without columns adds an empty column."},
  {"property": "C210", "status": "proved", "theorems": ["Cdx.C210_verify", "Cdx.C210_sorted"], "note": "C210_verify: any tables with the same header, from the texts of the options. C210_sorted: the output of sort. Keys as in C207; no --pattern, --first or --last."},
  {"property": "C211", "status": "proved", "theorems": ["Cdx.C211_paste", "Cdx.C211_cut_paste"], "note": "C211_paste: tables with headers, TAB between columns. C211_cut_paste: columns, groups and composites with constant texts (as in C133_table_partial); no expressions."},
  {"property": "C212", "status": "partial", "theorems": ["Cdx.C212_refuted", "Cdx.C212_merge_partial", "Cdx.C212_parts_partial"], "note": "Refuted: the keys are not looked up when merging, so that a key given by name compares the first column (C212_refuted). Proved for keys given by number, with --alt-merge, or with the default merge if rows with equal keys are equal (C29: it is not stable)."},
  {"property": "C213", "status": "partial", "theorems": ["Cdx.C213_search_partial", "Cdx.C213_found_partial", "Cdx.C213_refuted"], "note": "binsearch compares the header line too, so rows can be missed (C213_refuted); proved for values greater than what the header line has at the place of the column."},
  {"property": "C214", "status": "proved", "theorems": ["Cdx.C214_rows"], "note": "Methods are those of plainMethods and caseMethods (Spec/Match.lean), with or without `not`; the pattern of a method that ignores case is not empty."},
  {"property": "C215", "status": "proved", "theorems": ["Cdx.C215_twice", "Cdx.C215_invert", "Cdx.C215_sort", "Cdx.C215_search"], "note": "C215_search: for values greater than what the header line has at the place of the column (see C213). C215_sort: values without zero bytes, tables that fit in the buffer (as in C140)."},
  {"property": "C216", "status": "proved", "theorems": ["Cdx.C216_keys", "Cdx.C216_again"], "note": "C216_keys: the key lists appended. C216_again: idempotence. Conditions: values without zero bytes, tables that fit in the buffer, as in C140."},
  {"property": "C217", "status": "proved", "theorems": ["Cdx.C217_sort", "Cdx.C217_grep"], "note": "KeptCol says that a column is in a list of fields under its own name. Expressions in cut are left out, as in C133."},
  {"property": "C218", "status": "proved", "theorems": ["Cdx.C218_words"], "note": "The words are those clap accepts for the tables of the command (Accepts). Accepted words are given to the model already taken apart, see DESIGN.md."},
  {"property": "C219", "status": "proved", "theorems": ["Cdx.C219_output", "Cdx.C219_join"], "note": "In the model a command that fails has written nothing; the claim for join is about runs that succeed. tooltest runs other programs and is left out."},
  {"property": "C22", "status": "partial", "theorems": ["Cdx.C22_preorder_partial", "Cdx.C22_meaning", "Cdx.C22_ip_value", "Cdx.C22_equal_consistent", "Cdx.C22_stored", "Cdx.C22_nan", "Cdx.C22_refuted"], "note": "Plain, caseless, length, IP, equal and their reversals for all texts; float when nothing converts to a NaN. Refuted for the numeric method (not transitive). Also: equality agrees with comparison, stored values compare like the value. The random method is not modelled."},
  {"property": "C220", "status": "proved", "theorems": ["Cdx.C220_sort", "Cdx.C220_verify", "Cdx.C220_cut", "Cdx.C220_grep", "Cdx.C220_uniq"], "note": "World.pipe runs the commands one after the other. Built on C209, C210, C215, C216 and C217, with the conditions given there."},
  {"property": "C221", "status": "proved", "theorems": ["Cdx.C221_paste", "Cdx.C221_merge", "Cdx.C221_search", "Cdx.C221_join"], "note": "World.script runs pipes one after the other, each into a file. Built on C207, C211, C212 and C213, with the conditions given there: right keys of join are all different, keys of --merge by number, values of binsearch greater than what stands in the header line."},
  {"property": "C222", "status": "proved", "theorems": ["Cdx.C222_cut", "Cdx.C222_grep", "Cdx.C222_cat", "Cdx.C222_cat_rows", "Cdx.C222_wc", "Cdx.C222_wc_format", "Cdx.C222_calc", "Cdx.C222_filegen", "Cdx.C222_sample", "Cdx.C222_tabs", "Cdx.C222_transpose", "Cdx.C222_uniq", "Cdx.C222_sort", "Cdx.C222_check", "Cdx.C222_verify", "Cdx.C222_paste", "Cdx.C222_bin_options", "Cdx.C222_binsearch"], "note": "Says takes the words apart; World.run runs the command. The conditions on the files are those of the claims about the mains they are built on (C53, C54, C113, C129, C146, C154, C157, C201-C204, C208, C210). All floating point numbers are any operations; wc needs sums of counts to be exact."},
  {"property": "C223", "status": "partial", "theorems": ["Cdx.C223_refuted", "Cdx.C223_cut_partial", "Cdx.C223_only_left_out", "Cdx.C223_fails", "Cdx.C223_transforms"], "note": "Violated for options that only leave columns out (C223_refuted: `~b+upper` writes the values unchanged; C223_only_left_out: their transform never has an effect). Proved for all other options (C223_cut_partial), with the transforms of the program (C223_transforms) and the panic if a transform fails (C223_fails)."},
  {"property": "C224", "status": "partial", "theorems": ["Cdx.C224_refuted", "Cdx.C224_calc_partial", "Cdx.C224_cut_partial"], "note": "The full statement (C224_statement) is refuted: calc writes `-0` for `0*-1`. Proved for values that are not 0. Values beyond 2^53 and fractions are outside the statement proved."},
  {"property": "C225", "status": "proved", "theorems": ["Cdx.C225_grep"], "note": ""},
  {"property": "C226", "status": "partial", "theorems": ["Cdx.C226_refuted", "Cdx.C226_partial"], "note": "The order is wrong when the first key is a formula with values 0 and -0 (C226_refuted): rows with -0 come before rows with 0. C226_partial needs the values of a formula that is the first key not to be 0; the first key may not be a text column in reverse, or hold a NUL (C25); data fits the buffer; at least one row. Missing: fractions and numbers beyond 2^53."},
  {"property": "C227", "status": "partial", "theorems": ["Cdx.C227_refuted", "Cdx.C227_refuted_method", "Cdx.C227_refuted_dot", "Cdx.C227_short", "Cdx.C227_partial"], "note": "Columns in brackets panic (C227_refuted) or are not found (C227_refuted_method), and so is the column after a word with a dot (C227_refuted_dot): find_close gives the position after the bracket, and a word of two letters is taken without the dot. `<b` with no method is too short (C227_short). C227_partial proves the claim, from the command line to the text written, for operators not followed by a dot and columns without brackets, if there are at least three bytes after `comp,`."},
  {"property": "C228", "status": "proved", "theorems": ["Cdx.C228_uniq"], "note": "From the words of the command line to what is written, with formulas, numbers and doubles modelled (C225)."},
  {"property": "C229", "status": "proved", "theorems": ["Cdx.C229_verify"], "note": "From the words of the command line to success or failure, with formulas, numbers and doubles modelled (C225)."},
  {"property": "C23", "status": "partial", "theorems": ["Cdx.C23_integers_partial", "Cdx.C23_leading", "Cdx.C23_plus", "Cdx.C23_refuted"], "note": "Exact for all integers with any digits, leading zeros, commas, blanks and minus, except a negative against a non-negative zero, which the code orders. A plus sign is not understood (C23_plus)."},
  {"property": "C230", "status": "proved", "theorems": ["Cdx.C230_sums"], "note": "From the words of the command line to what is written, with formulas, numbers and doubles modelled (C225). A finding: with aggregators the counts of --count of 1000 and more are written like 1e3, while without aggregators they are in decimal."},
  {"property": "C231", "status": "proved", "theorems": ["Cdx.C231_groups"], "note": "From the words of the command line to what is written, with formulas, numbers and doubles modelled (C225)."},
  {"property": "C232", "status": "proved", "theorems": ["Cdx.C232_totals"], "note": "Two whole commands in a pipe, from their words to the bytes written. IsGroups.unique: there is only one such list of groups."},
  {"property": "C233", "status": "proved", "theorems": ["Cdx.C233_counted"], "note": "Two whole commands in a pipe, from their words to the bytes written."},
  {"property": "C234", "status": "proved", "theorems": ["Cdx.C234_unique", "Cdx.C234_verify"], "note": "Whole commands in pipes, from their words to the bytes written."},
  {"property": "C235", "status": "proved", "theorems": ["Cdx.C235_sum", "Cdx.C235_order", "Cdx.C235_mean"], "note": "Says what remains of C193 (which is refuted) for columns of any doubles. The errors of reading the texts are in C185 and its companions."},
  {"property": "C236", "status": "proved", "theorems": ["Cdx.C236_keys", "Cdx.C236_uniq"], "note": "Whole commands in pipes, from their words to the bytes written."},
  {"property": "C237", "status": "proved", "theorems": ["Cdx.C237_missing"], "note": "The model opens all files first; cat and sample are excluded because they do not always."},
  {"property": "C238", "status": "proved", "theorems": ["Cdx.C238_sort", "Cdx.C238_order", "Cdx.C238_exact", "Cdx.C238_minus_zero"], "note": "Minus zero is left out, as its cached key is before that of 0 (C26); C238_minus_zero is a table where this shows. The bound is that of C185."},
  {"property": "C239", "status": "proved", "theorems": ["Cdx.C239_numbers", "Cdx.C239_unique", "Cdx.C239_verify"], "note": "Whole commands and pipes, from their words to the bytes written. Minus zero is left out, as in C238."},
  {"property": "C24", "status": "partial", "theorems": ["Cdx.C24_swap_partial", "Cdx.C24_refl_partial", "Cdx.C24_decimals_partial", "Cdx.C24_decimals_preorder_partial", "Cdx.C24_decimals_differ_partial", "Cdx.C24_decimals_value_partial", "Cdx.C24_fraction_ignored", "Cdx.C24_refuted"], "note": "Refuted: 1 equals 1.5 and 1.7. Reflexive and antisymmetric on all texts; on numbers with a decimal point it is a total preorder by sign, value and fraction digits that agrees with the values."},
  {"property": "C240", "status": "proved", "theorems": ["Cdx.C240_unknown", "Cdx.C240_both"], "note": "The list of commands is written out in the statement. For formulas among the keys, the model refuses --check and --merge alone, too, where the program panics (a simplification stated in Model/SortFormula.lean)."},
  {"property": "C241", "status": "proved", "theorems": ["Cdx.C241_sort", "Cdx.C241_uniq"], "note": "Whole commands in pipes, from their words to the bytes written."},
  {"property": "C242", "status": "proved", "theorems": ["Cdx.C242_sort", "Cdx.C242_exact"], "note": "Minus zero is left out of the first column, as in C238. Decimals are asked for in the first key only; further numeric keys hold whole numbers."},
  {"property": "C243", "status": "proved", "theorems": ["Cdx.C243_numbers", "Cdx.C243_unique", "Cdx.C243_verify"], "note": "What sort writes by these keys is C242. Minus zero is left out of the first column."},
  {"property": "C244", "status": "proved", "theorems": ["Cdx.C244_then"], "note": "The conditions on the keys of the first sort are those of C226_partial."},
  {"property": "C245", "status": "proved", "theorems": ["Cdx.C245_cat", "Cdx.C245_sort", "Cdx.C245_decimals"], "note": "The tables are separated by tabs, as in C226."},
  {"property": "C246", "status": "proved", "theorems": ["Cdx.C246_sort", "Cdx.C246_decimals"], "note": "Names of files that end in a slash are left out, as in C225."},
  {"property": "C25", "status": "partial", "theorems": ["Cdx.C25_text_column_partial", "Cdx.C25_length_column_partial", "Cdx.C25_ip_column_partial", "Cdx.C25_float_partial", "Cdx.C25_whole_line_partial", "Cdx.C25_equal_column_partial", "Cdx.C25_equal_float_partial", "Cdx.C25_list", "Cdx.C25_reverse_lost", "Cdx.C25_ip_reverse_lost", "Cdx.C25_numeric_disagrees", "Cdx.C25_whole_line_all_equal", "Cdx.C25_refuted", "Cdx.C25_split"], "note": "Refuted in several ways: NUL bytes, reverse applied twice on fallback, numeric keys, whole-line length and float keys taken from the whole buffer. Proved for the remaining cases per method. Split and unsplit lines get the same keys (C25_split)."},
  {"property": "C26", "status": "partial", "theorems": ["Cdx.C26_key_order_partial", "Cdx.C26_monotone", "Cdx.C26_refuted"], "note": "Exact for all pairs except 0 against -0, which are equal but have different keys."},
  {"property": "C27", "status": "proved", "theorems": ["Cdx.C27_first_decides", "Cdx.C27_eq_iff", "Cdx.C27_equal_agrees", "Cdx.C27_preorder", "Cdx.C27_preorder_methods", "Cdx.C27_reverse_one", "Cdx.C27_stored", "Cdx.C27_set", "Cdx.C27_set_count", "Cdx.C27_set_single"], "note": "For all lists of comparators, files and lines, including stored values (set, comp_self_line)."},
  {"property": "C28", "status": "partial", "theorems": ["Cdx.C28_in_memory", "Cdx.C28_any_limit_partial", "Cdx.C28_succeeds_in_memory", "Cdx.C28_succeeds_one_file", "Cdx.C28_refuted"], "note": "In memory: exactly the stable sort, and with unique exactly the first line of each class. When the limit forces temporary runs: a sorted permutation (one line of each class with unique), for every way of reading and every heap; the order of equal lines is refuted. Keys as in GoodKeys (those for which C22 and C25 hold), lines without NUL, spilled data lines not starting with ' CDX'."},
  {"property": "C29", "status": "partial", "theorems": ["Cdx.C29_tree", "Cdx.C29_tree_unique", "Cdx.C29_heap_partial", "Cdx.C29_heap_unique", "Cdx.C29_heap_tree", "Cdx.C29_preorder", "Cdx.C29_single", "Cdx.C29_refuted"], "note": "The tree merge is the stable merge for any number of files, with unique the first of each class. The heap merge (the default) gives a sorted permutation that keeps the order inside each file, one per class with unique; ties between files are refuted."},
  {"property": "C30", "status": "partial", "theorems": ["Cdx.C30_keys_partial", "Cdx.C30_whole_line", "Cdx.C30_refuted", "Cdx.C30_refuted_unique", "Cdx.C30_refuted_lost_line", "Cdx.C30_refuted_error", "Cdx.C30_refuted_long_line"], "note": "Any two limits give the same header, the same lines up to order and the same keys in every position; for the whole-line key the same output. Refuted: ties, the line kept by unique, a run starting with a ' CDX' line loses it, a later file whose first line does not fit is an error, a line longer than the buffer panics."},
  {"property": "C31", "status": "proved", "theorems": ["Cdx.C31_join", "Cdx.C31_default_columns", "Cdx.C31_preorder", "Cdx.C31_repeated_keys", "Cdx.C31_header", "Cdx.C31_refused", "Cdx.C31_empty"], "note": "For all contents, keys, output columns and --also options, on the actual output bytes; the comparison must be an ordering on the lines that occur (C31_preorder: all methods, with whole numbers for numeric and no NaN). With repeated keys in file 2 the first line with the key is used."},
  {"property": "C32", "status": "partial", "theorems": ["Cdx.C32_smooth_partial", "Cdx.C32_two", "Cdx.C32_refuted", "Cdx.C32_doubles_partial"], "note": "Proved with exact floating point rounding for sample sizes 3 to 2^24 (exactly min(n, lines) lines). A sample of 2 lines panics on the third line: refuted. The integer arithmetic is proved equal to that of doubles bit by bit."},
  {"property": "C33", "status": "proved", "theorems": ["Cdx.C33_fit", "Cdx.C33_unique", "Cdx.C33_narrow"], "note": "The requirements determine the result uniquely (C33_unique); a screen narrower than the number of columns panics (C33_narrow)."},
  {"property": "C34", "status": "partial", "theorems": ["Cdx.C34_plain", "Cdx.C34_header", "Cdx.C34_twice_plain", "Cdx.C34_twice_partial", "Cdx.C34_refuted"], "note": "On file contents. A file with a header only yields an extra line of empty fields: refuted for such files; proved for all others."},
  {"property": "C35", "status": "partial", "theorems": ["Cdx.C35_value_partial", "Cdx.C35_total_partial", "Cdx.C35_nonempty", "Cdx.C35_no_panic", "Cdx.C35_refuted", "Cdx.C35_empty"], "note": "Refuted for formulas of nothing but parentheses, such as () or the empty text: accepted, and evaluation panics. Proved for all others, from the text on, whatever the floating point operations compute."},
  {"property": "C36", "status": "partial", "theorems": ["Cdx.C36_postfix", "Cdx.C36_minimal", "Cdx.C36_unique", "Cdx.C36_text_partial", "Cdx.C36_refuted"], "note": "Proved for token lists in full, with the fewest or with more parentheses. From the text on it is refuted: abs(-3), 5!-3 and 5!==3 are rejected; proved when no sign follows the parenthesis of a call and no plus, minus or equality a factorial."},
  {"property": "C37", "status": "proved", "theorems": ["Cdx.C37_fold", "Cdx.C37_value"], "note": "For every postfix token list, all values of variables, any floating point operations; C37_value carries it to the value of the expression written."},
  {"property": "C38", "status": "partial", "theorems": ["Cdx.C38_suffixes_partial", "Cdx.C38_refuted"], "note": "the integer tables use exclusive or for powers (proved wrong for all but K and k); the floating point tables are right"},
  {"property": "C39", "status": "proved", "theorems": ["Cdx.C39_to_usize", "Cdx.C39_decompose", "Cdx.C39_whole"], "note": "overflow is a panic as in a debug build"},
  {"property": "C40", "status": "proved", "theorems": ["Cdx.C40_ord_ok", "Cdx.C40_numbers", "Cdx.C40_invert", "Cdx.C40_invert_twice", "Cdx.C40_trichotomy", "Cdx.C40_negations", "Cdx.C40_parse", "Cdx.C40_parse_iff"], "note": "All operators, all orderings; also the names and symbols they are read from."},
  {"property": "C41", "status": "partial", "theorems": ["Cdx.C41_verbose_partial", "Cdx.C41_quiet", "Cdx.C41_quiet_equality_partial", "Cdx.C41_refuted", "Cdx.C41_second_bound_ignored", "Cdx.C41_second_value_lost", "Cdx.C41_whole_line_end", "Cdx.C41_buff_ok", "Cdx.C41_made", "Cdx.C41_quiet_both", "Cdx.C41_buff_made"], "note": "Refuted: CheckLine::line_ok tests the value against the line, so LT selects the greater lines; the verbose form ignores the second bound; the second value is lost when set. Proved: the verbose form with one bound, the equality operators in both, and CheckBuff (the range method of matchers) in full."},
  {"property": "C42", "status": "proved", "theorems": ["Cdx.C42_early", "Cdx.C42_line"], "note": "Every determiner, every sequence of answers, every running count. C42_line is the same for lines."},
  {"property": "C43", "status": "partial", "theorems": ["Cdx.C43_counts_partial", "Cdx.C43_swapped", "Cdx.C43_refuted", "Cdx.C43_doubles_partial", "Cdx.C43_doubles_limit"], "note": "Refuted: with fractions, at least and at most are exchanged (C43_swapped). Proved for all determiners about counts, and exactly with fractions. With quotients rounded to doubles the answers are the same, unless the fraction is the rounded limit but not the exact one (C43_doubles_limit)."},
  {"property": "C44", "status": "proved", "theorems": ["Cdx.C44_prefix", "Cdx.C44_suffix", "Cdx.C44_order"], "note": "For every non-empty sequence of values, in both directions (common, and longest)."},
  {"property": "C45", "status": "partial", "theorems": ["Cdx.C45_min", "Cdx.C45_max", "Cdx.C45_max_partial", "Cdx.C45_max_plain", "Cdx.C45_refuted"], "note": "Refuted: max starts from the empty text, so the numeric maximum of -1 and -2 is nothing. min is proved in full; max if some value is greater than the empty text, and always for plain comparison. Values are those on which the comparator is an ordering (KeyOk)."},
  {"property": "C46", "status": "partial", "theorems": ["Cdx.C46_exact", "Cdx.C46_merge_partial", "Cdx.C46_sort_uniq", "Cdx.C46_limits", "Cdx.C46_refuted", "Cdx.C46_refuted_limits"], "note": "Refuted: an empty part (or a newline) at the very end is lost, max_parts:0 prints a part, count ignores the limits. Proved: what is printed, exactly, for all values and options; the full claim outside these cases."},
  {"property": "C47", "status": "partial", "theorems": ["Cdx.C47_mean_partial", "Cdx.C47_refuted"], "note": "Refuted: amean prints the sum. The value it gives to other code is the mean."},
  {"property": "C48", "status": "partial", "theorems": ["Cdx.C48_words_partial", "Cdx.C48_blank", "Cdx.C48_idempotent", "Cdx.C48_cover", "Cdx.C48_utf8_partial", "Cdx.C48_utf8_idempotent", "Cdx.C48_refuted"], "note": "Refuted: a leading blank puts a space after the first character of the first word (' ab' becomes 'a b'). Proved: the exact result for every value, right without leading blanks; idempotence in full."},
  {"property": "C49", "status": "partial", "theorems": ["Cdx.C49_compose_partial", "Cdx.C49_spec", "Cdx.C49_spec_nonempty", "Cdx.C49_empty", "Cdx.C49_refuted"], "note": "Refuted for the empty list, which gives its old buffer; proved for every other list, and no specification makes an empty list."},
  {"property": "C50", "status": "partial", "theorems": ["Cdx.C50_assign_partial", "Cdx.C50_refuted"], "note": "the full statement is false of the code in backslash and quote mode (negation proved); holds in plain mode"},
  {"property": "C51", "status": "partial", "theorems": ["Cdx.C51_runs_partial", "Cdx.C51_command_partial", "Cdx.C51_header_only", "Cdx.C51_counts", "Cdx.C51_equivalence", "Cdx.C51_refuted", "Cdx.C51_refuted_quote", "Cdx.C51_refuted_quote_plain"], "note": "Refuted: with a whole-line key the lines are not split, so --which min,col compares the columns of the first line; in quote mode a line not split is written as an older one. Proved in plain mode when the key makes the reader split or --which does not compare columns. --agg is not in this model."},
  {"property": "C52", "status": "partial", "theorems": ["Cdx.C52_copy_partial", "Cdx.C52_copy_any_pad_partial", "Cdx.C52_pad_missing", "Cdx.C52_refuted", "Cdx.C52_refuted_joined"], "note": "Refuted: whether the file ended with a newline is taken from its first line, so a file of two lines without final newline is joined to the next one. Proved for files that end with a newline or have one line."},
  {"property": "C53", "status": "partial", "theorems": ["Cdx.C53_exact_partial", "Cdx.C53_verify_partial", "Cdx.C53_refuted", "Cdx.C53_count"], "note": "Refuted: failures of the last line of a file (number of columns, patterns) are not counted. C53_exact_partial says exactly what is checked: columns and patterns of all lines but the last, the order of all lines, and the first and last line checks. C53_verify_partial: the full statement if the last line is good. C53_count: exactly how many failures are counted, up to five."},
  {"property": "C54", "status": "partial", "theorems": ["Cdx.C54_sorted", "Cdx.C54_check_partial", "Cdx.C54_refuted"], "note": "Refuted: sort --check does not look up named keys, so a named key compares the first column. Proved for keys given by number or whole lines, any number of files and any report limit above zero."},
  {"property": "C55", "status": "partial", "theorems": ["Cdx.C55_paste_partial", "Cdx.C55_headerless_partial", "Cdx.C55_rows_unique", "Cdx.C55_refuted", "Cdx.C55_refuted_quote", "Cdx.C55_exact_writes"], "note": "Refuted: --last with a file that has only a header panics; in quote mode the last character of each line is lost. Proved in plain mode with newline ends for any number of files with headers (distinct valid names), or with the first file headerless; --last late needs a data line in each file."},
  {"property": "C56", "status": "proved", "theorems": ["Cdx.C56_partition", "Cdx.C56_selects"], "note": "Any matchers, any number of files, any header mode, in the default text mode; --location is not modelled."},
  {"property": "C57", "status": "proved", "theorems": ["Cdx.C57_lines", "Cdx.C57_texts", "Cdx.C57_all", "Cdx.C57_lookup"], "note": "Lists of any length; tests that fail or panic are covered by C57_all."},
  {"property": "C58", "status": "partial", "theorems": ["Cdx.C58_not_lines_partial", "Cdx.C58_not_ignored", "Cdx.C58_null_inverts", "Cdx.C58_refuted"], "note": "Refuted: not is ignored except when lines are matched (C58_not_ignored), and null sets the flag of not (C58_null_inverts). Proved: for lines, not inverts the decision of every matcher."},
  {"property": "C59", "status": "partial", "theorems": ["Cdx.C59_range_partial", "Cdx.C59_picked", "Cdx.C59_refuted", "Cdx.C59_refuted_header", "Cdx.C59_refuted_quote"], "note": "Refuted: lines are counted from 0 although the default and the help text say 1; a file with only a header ends the command; in quote mode old lines are written. C59_range_partial: in plain mode, no file with only a header, exactly the lines in the ranges counted from 0, for any number of files."},
  {"property": "C60", "status": "partial", "theorems": ["Cdx.C60_counts_partial", "Cdx.C60_rows", "Cdx.C60_refuted", "Cdx.C60_refuted_newline"], "note": "Refuted: an empty file gets no row, and a missing newline at the end is counted. C60_counts_partial: lines, bytes, words and totals are right if every file ends in a newline (files without header, exact sums). C60_rows: the whole output for any aggregators and options in plain mode."},
  {"property": "C61", "status": "partial", "theorems": ["Cdx.C61_file_partial", "Cdx.C61_only_then", "Cdx.C61_content", "Cdx.C61_streams", "Cdx.C61_refuted"], "note": "Refuted: the file is opened without truncation, so the tail of a longer old content stays. Partial: exact content after any writes, and it is right if and only if the old content was not longer."},
  {"property": "C62", "status": "proved", "theorems": ["Cdx.C62_head", "Cdx.C62_tail", "Cdx.C62_head_path", "Cdx.C62_tail_path"], "note": ""},
  {"property": "C63", "status": "partial", "theorems": ["Cdx.C63_prefix", "Cdx.C63_suffix_partial", "Cdx.C63_chars", "Cdx.C63_refuted"], "note": "an empty case-blind suffix pattern panics (proved); everything else is exact"},
  {"property": "C64", "status": "partial", "theorems": ["Cdx.C64_byte_ranges_partial", "Cdx.C64_refuted"], "note": "positions of 2^32 and above wrap around (proved); exact below"},
  {"property": "C65", "status": "partial", "theorems": ["Cdx.C65_pass_through_partial", "Cdx.C65_refuted"], "note": "false of the code in backslash mode (proved); holds in plain mode"},
  {"property": "C66", "status": "partial", "theorems": ["Cdx.C66_with_header_partial", "Cdx.C66_refuted"], "note": "Holds for files with a header and empty files. A file without header gets a made-up first line 'c1\\tc2...' in its unmatched output: refuted."},
  {"property": "C67", "status": "partial", "theorems": ["Cdx.C67_routing_partial", "Cdx.C67_refuted"], "note": "No check is made: unsorted input is accepted (refuted). Proved for any order of lines: each line of file 1 goes to exactly one output, in order, rows only join lines with equal keys, and no line of file 2 is lost."},
  {"property": "C68", "status": "partial", "theorems": ["Cdx.C68_first_two_partial", "Cdx.C68_refuted"], "note": "Files after the second are never advanced: rows are those of the first two files, and columns of a further file are those of its first line, whatever its key (refuted)."},
  {"property": "C69", "status": "proved", "theorems": ["Cdx.C69_even", "Cdx.C69_doubles"], "note": "For sample sizes 3 to 2^24, with exact floating point rounding; the bound is attained (example)."},
  {"property": "C70", "status": "partial", "theorems": ["Cdx.C70_show", "Cdx.C70_lines", "Cdx.C70_whole", "Cdx.C70_ragged"], "note": "For files whose lines have at most as many columns as the header; a longer line panics (C70_ragged). Widths and truncation of characters are parameters with the contract GlyphsOk, met by ASCII text (asciiGlyphs_ok)."},
  {"property": "C71", "status": "partial", "theorems": ["Cdx.C71_grammar_partial", "Cdx.C71_refuted"], "note": "(2)(3)+ is accepted: refuted. If operands and operators alternate, exactly the formulas of the grammar are accepted."},
  {"property": "C72", "status": "partial", "theorems": ["Cdx.C72_bracket_partial", "Cdx.C72_named", "Cdx.C72_refuted"], "note": "Refuted when a column has a name like c1; proved otherwise. Finding the brackets and resolving the column set are covered by the column set theorems, not joined here."},
  {"property": "C73", "status": "partial", "theorems": ["Cdx.C73_one_partial", "Cdx.C73_two", "Cdx.C73_three", "Cdx.C73_max_min", "Cdx.C73_refuted", "Cdx.C73_fmax", "Cdx.C73_fmin", "Cdx.C73_copysign"], "note": "acos computes the absolute value: refuted. All other functions proved."},
  {"property": "C74", "status": "partial", "theorems": ["Cdx.C74_factorial_partial", "Cdx.C74_refuted", "Cdx.C74_double_refuted", "Cdx.C74_double_partial"], "note": "0! is 0: refuted. Proved for all positive whole numbers; the literals count with their decimal values. With doubles: the nearest double up to 27, off by at most 6 units in the last place up to 170, infinity above; 28! is not the nearest double."},
  {"property": "C75", "status": "partial", "theorems": ["Cdx.C75_symbols_partial", "Cdx.C75_names", "Cdx.C75_names_range", "Cdx.C75_trail_symbols", "Cdx.C75_trail_symbols_range", "Cdx.C75_trail_start", "Cdx.C75_trail_names", "Cdx.C75_trail_names_range", "Cdx.C75_or_equal_lost", "Cdx.C75_refuted", "Cdx.C75_as_written", "Cdx.C75_trail_as_written", "Cdx.C75_parse"], "note": "Refuted for RangeSpec::new: <=a is read as less than '=a'. Proved for the other operators, for names, and for new_trail in full."},
  {"property": "C76", "status": "partial", "theorems": ["Cdx.C76_plain", "Cdx.C76_case_partial", "Cdx.C76_comment_partial", "Cdx.C76_length", "Cdx.C76_glob_partial", "Cdx.C76_numbers", "Cdx.C76_refuted", "Cdx.C76_comment_refuted", "Cdx.C76_exact_utf8_refuted", "Cdx.C76_strings", "Cdx.C76_glob_strings_partial", "Cdx.C76_chars", "Cdx.C76_other_names"], "note": "Refuted: case-blind suffix with an empty pattern panics; comment, hash and slash accept blank values; exact.utf8.case,A rejects A. Proved: all plain methods, the case-blind ones on bytes with non-empty patterns, length, numbers, and glob as far as C13 goes. User regular expressions are not modelled. The utf8 methods are proved for values that are strings; other values are errors, or not accepted."},
  {"property": "C77", "status": "proved", "theorems": ["Cdx.C77_integer", "Cdx.C77_number", "Cdx.C77_float", "Cdx.C77_octet", "Cdx.C77_ip", "Cdx.C77_nested"], "note": "The four built-in regular expressions, with a matcher by derivatives proved equal to their language."},
  {"property": "C78", "status": "partial", "theorems": ["Cdx.C78_file_exact_partial", "Cdx.C78_file_case_partial", "Cdx.C78_refuted", "Cdx.C78_fileexact_partial"], "note": "Refuted: empty lines are not accepted (nor a header line). Proved for non-empty lines, with and without case."},
  {"property": "C79", "status": "partial", "theorems": ["Cdx.C79_multi_partial", "Cdx.C79_refuted"], "note": "Refuted: an empty pattern panics. Proved for every other pattern, method and value."},
  {"property": "C80", "status": "partial", "theorems": ["Cdx.C80_forms_partial", "Cdx.C80_set_lost", "Cdx.C80_whole_text", "Cdx.C80_whole_backslash", "Cdx.C80_refuted"], "note": "Refuted: the column-set form tests the one column called like the determiner (C80_set_lost); with backslash quoting the last character of a whole line is not seen. Proved: the column and whole-line forms."},
  {"property": "C81", "status": "proved", "theorems": ["Cdx.C81_encode_total", "Cdx.C81_inverse", "Cdx.C81_shape"], "note": "Base64 is modelled after RFC 4648 with required padding, as the STANDARD engine of the crate."},
  {"property": "C82", "status": "partial", "theorems": ["Cdx.C82_alias_partial", "Cdx.C82_first", "Cdx.C82_bytes", "Cdx.C82_unknown", "Cdx.C82_list", "Cdx.C82_refuted"], "note": "Refuted: the first transform of a program cannot use lowercase or uppercase, because the aliases are looked up before the table is filled. Proved otherwise."},
  {"property": "C83", "status": "proved", "theorems": ["Cdx.C83_clone"], "note": "Library users' own transforms are not modelled."},
  {"property": "C84", "status": "proved", "theorems": ["Cdx.C84_case"], "note": "ASCII versions only; the Unicode versions depend on std's tables."},
  {"property": "C85", "status": "proved", "theorems": ["Cdx.C85_words", "Cdx.C85_bytes", "Cdx.C85_none"], "note": "The loop is proved for any characters, which covers the Unicode versions up to std's tables."},
  {"property": "C86", "status": "proved", "theorems": ["Cdx.C86_sum", "Cdx.C86_asum", "Cdx.C86_extremes"], "note": "Arithmetic on f64 is left open; sums of counts are assumed not to overflow."},
  {"property": "C87", "status": "proved", "theorems": ["Cdx.C87_reset"], "note": "ExprAgg and aggregators of library users are not modelled."},
  {"property": "C88", "status": "partial", "theorems": ["Cdx.C88_signed_partial", "Cdx.C88_suffix_partial", "Cdx.C88_refuted", "Cdx.C88_suffix_refuted", "Cdx.C88_overflow", "Cdx.C88_trailing", "Cdx.C88_no_digits"], "note": "Refuted: -2^63 overflows, and the suffixes Z and Y negate (usize::MAX as isize is -1). Proved otherwise. The multipliers themselves are those of the code (see the finding on powers)."},
  {"property": "C89", "status": "partial", "theorems": ["Cdx.C89_options_partial", "Cdx.C89_refuted"], "note": "Refuted: a delimiter option at the end is an error. Proved if every delimiter option is followed by one that is neither a delimiter option nor the comparator."},
  {"property": "C90", "status": "partial", "theorems": ["Cdx.C90_names_partial", "Cdx.C90_alias", "Cdx.C90_pattern", "Cdx.C90_meaning", "Cdx.C90_refuted", "Cdx.C90_patterns", "Cdx.C90_counter"], "note": "Refuted: anything before a dot is ignored, so frob.sum is sum. Proved: the last dotted word decides and has to be known."},
  {"property": "C91", "status": "partial", "theorems": ["Cdx.C91_one_run", "Cdx.C91_refuted"], "note": "Refuted: without --key all lines are one run, for every file with data (C91_one_run)."},
  {"property": "C92", "status": "proved", "theorems": ["Cdx.C92_count_column", "Cdx.C92_header_iff"], "note": "Rows are lists of columns without delimiter or newline."},
  {"property": "C93", "status": "partial", "theorems": ["Cdx.C93_numbered_partial", "Cdx.C93_refuted", "Cdx.C93_refuted_quote", "Cdx.C93_refuted_header"], "note": "Refuted: a file with only a header ends the command; in quote mode old lines are written; a header after a file without one is written among the lines. Proved in plain mode for any files none of which has only a header."},
  {"property": "C94", "status": "partial", "theorems": ["Cdx.C94_last", "Cdx.C94_unique", "Cdx.C94_parse_partial", "Cdx.C94_refuted", "Cdx.C94_panic", "Cdx.C94_ints", "Cdx.C94_get"], "note": "Refuted: an empty value before the delimiter becomes the delimiter itself. The lookup part (C94_last) is proved without restriction; parsing for non-empty values."},
  {"property": "C95", "status": "partial", "theorems": ["Cdx.C95_names_partial", "Cdx.C95_plain_partial", "Cdx.C95_refuted", "Cdx.C95_verify", "Cdx.C95_sort"], "note": "Refuted: the made-up header is joined with tabs but split at the delimiter of the file. Proved for the tab delimiter. sort makes up its names by itself and gets them right (C95_sort)."},
  {"property": "C96", "status": "partial", "theorems": ["Cdx.C96_for_partial", "Cdx.C96_never_first", "Cdx.C96_refuted", "Cdx.C96_refuted_overflow"], "note": "Refuted: lines are counted from 0, but from must be at least 1, so the first line is never written; a huge step overflows. C96_for_partial: exactly the wanted lines counted from 0 in plain mode, if step plus number of lines fit into a word."},
  {"property": "C97", "status": "partial", "theorems": ["Cdx.C97_sample_partial", "Cdx.C97_refuted"], "note": "Refuted: files after one with only a header are not sampled. Proved in plain mode for sizes from 3 to 2^24, if no file has only a header."},
  {"property": "C98", "status": "partial", "theorems": ["Cdx.C98_read_partial", "Cdx.C98_round", "Cdx.C98_refuted", "Cdx.C98_refuted_dash"], "note": "Refuted: empty numbers are accepted as 0. Proved: all texts of ranges are read as they should, and every list of ranges has such a text."},
  {"property": "C99", "status": "partial", "theorems": ["Cdx.C99_short_partial", "Cdx.C99_refuted", "Cdx.C99_refuted_digits"], "note": "Refuted: zero is printed as 0e0, and 1234 as 1.234e3. Partial: it is always one of the two texts, and the shorter one from 1 to 999."}
]}
