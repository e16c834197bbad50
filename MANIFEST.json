{
 "claims": [
  {
   "property": "C01",
   "status": "proved",
   "theorems": [
    "PhpLs.Scanner.C01_scan_total",
    "PhpLs.Scanner.C01_progress",
    "PhpLs.Scanner.C01_fuel_irrelevant",
    "PhpLs.Scanner.C01_collectWhile_eq",
    "PhpLs.Scanner.C01_collectUntilEscaped_eq",
    "PhpLs.Scanner.C01_turns_compose"
   ],
   "note": ""
  },
  {
   "property": "C02",
   "status": "proved",
   "theorems": [
    "PhpLs.Scanner.C02_document_range"
   ],
   "note": ""
  },
  {
   "property": "C03",
   "status": "proved",
   "theorems": [
    "PhpLs.Scanner.C03_positions_sorted",
    "PhpLs.Scanner.C03_positions_in_text"
   ],
   "note": ""
  },
  {
   "property": "C04",
   "status": "partial",
   "theorems": [
    "PhpLs.Scanner.C04_carriage_returns_partial",
    "PhpLs.Scanner.C04_crlf_partial",
    "PhpLs.Scanner.C04_violation_heredoc"
   ],
   "note": "Proved for every text without \"<<<\"; the code violates the claim for heredocs with CRLF line endings (witness)."
  },
  {
   "property": "C05",
   "status": "partial",
   "theorems": [
    "PhpLs.Scanner.C05_run",
    "PhpLs.Scanner.C05_html_ignored_partial",
    "PhpLs.Scanner.C05_tokens_independent_partial",
    "PhpLs.Scanner.C05_no_tag_no_tokens_partial",
    "PhpLs.Scanner.C05_violation",
    "PhpLs.Scanner.C05_violation_upper_case_tag"
   ],
   "note": "Proved for markup without \"<<<\" and not ending in \"<\"; the code violates the claim in the excluded cases (witnesses)."
  },
  {
   "property": "C06",
   "status": "proved",
   "theorems": [
    "PhpLs.Scanner.C06_string_literal",
    "PhpLs.Scanner.C06_unterminated"
   ],
   "note": ""
  },
  {
   "property": "C07",
   "status": "partial",
   "theorems": [
    "PhpLs.Scanner.C07_word",
    "PhpLs.Scanner.C07_keyword_table_functional",
    "PhpLs.Scanner.C07_case_insensitive",
    "PhpLs.Scanner.C07_yield_from",
    "PhpLs.Scanner.C07_violation_yield_FROM"
   ],
   "note": "Words and keywords proved; \"yield from\" is only joined when \"from\" is lower case (witness)."
  },
  {
   "property": "C08",
   "status": "partial",
   "theorems": [
    "PhpLs.Scanner.C08_longest_match_partial",
    "PhpLs.Scanner.C08_question_minus",
    "PhpLs.Scanner.C08_double_dot",
    "PhpLs.Scanner.C08_integer",
    "PhpLs.Scanner.C08_violation"
   ],
   "note": "Longest match for every operator of the table; \"?-\" and \"..\" are the exceptions (characterised and witnessed)."
  },
  {
   "property": "C09",
   "status": "partial",
   "theorems": [
    "PhpLs.Scanner.C09_block_comment",
    "PhpLs.Scanner.C09_line_comment",
    "PhpLs.Scanner.C09_line_comment_tag",
    "PhpLs.Scanner.C09_hash_comment_partial",
    "PhpLs.Scanner.C09_violation_hash"
   ],
   "note": "Comments with \"#\" lose their first character and swallow an immediately following line break (witness)."
  },
  {
   "property": "C10",
   "status": "proved",
   "theorems": [
    "PhpLs.Scanner.C10_offset_is_index"
   ],
   "note": ""
  },
  {
   "property": "C11",
   "status": "partial",
   "theorems": [
    "PhpLs.Scanner.C11_tokens_lie",
    "PhpLs.Scanner.C11_tokens_clear",
    "PhpLs.Scanner.C11_spaced_partial",
    "PhpLs.Scanner.C11_end_panics_only_for_empty_heredoc_marker",
    "PhpLs.Scanner.C11_violation_end_panics",
    "PhpLs.Scanner.C11_end_is_behind_text_partial",
    "PhpLs.Scanner.C11_operator_end",
    "PhpLs.Scanner.C11_keyword_end",
    "PhpLs.Scanner.C11_violation_wrong_end",
    "PhpLs.Scanner.C11_violation_overlap"
   ],
   "note": "For every scanned text: every token was read from a piece of the text, starts where the piece starts, prints as the piece and ends where it ends, or deviates in one of ten listed ways (aliases, casts, yield from, heredocs, # comments, ?-, a closing tag in a comment, unclosed strings and comments, labels that are not ASCII, numbers that start with a point); no token reaches into the next one except in the listed ways. The end panics exactly for heredoc tokens with an empty marker. Witnesses for the deviations. The full statement is false."
  },
  {
   "property": "C12",
   "status": "partial",
   "theorems": [
    "PhpLs.Scanner.C12_heredoc",
    "PhpLs.Scanner.C12_decided",
    "PhpLs.Scanner.C12_heredoc_partial",
    "PhpLs.Scanner.C12_violation"
   ],
   "note": "Decided for every text without carriage returns behind the opening line: exactly where the code sees the end and what the content is, and that it is an error otherwise. The claim itself holds for bodies in which no line starts, behind blanks, with the first character of the marker. Otherwise the code violates it: the character behind a part of the marker is lost, and if it is a line feed the terminator on the next line is missed; a longer word that begins with the marker ends the heredoc; so does not a terminator at the end of the text (witnesses)."
  },
  {
   "property": "C13",
   "status": "partial",
   "theorems": [
    "PhpLs.Parser.C13_parsing_ends_partial",
    "PhpLs.Parser.C13_parse_exists_partial",
    "PhpLs.Parser.C13_fails_globals",
    "PhpLs.Parser.C13_fails_ast",
    "PhpLs.Parser.C13_fails_lexicals",
    "PhpLs.Parser.C13_fails_alterations"
   ],
   "note": "All loops and the recursion end within a linear number of steps, except six loops on token streams that contain the patterns of MayHang; the code does run forever on texts with these patterns (witnesses for every amount of fuel)."
  },
  {
   "property": "C14",
   "status": "partial",
   "theorems": [
    "PhpLs.Parser.C14_never_error",
    "PhpLs.Parser.C14_never_panics",
    "PhpLs.Parser.C14_scanned",
    "PhpLs.Parser.C14_violation_empty_heredoc_marker"
   ],
   "note": "Parsing never aborts with an error, and never panics on the tokens of a scanned text unless a heredoc has an empty marker, where it does (witness)."
  },
  {
   "property": "C15",
   "status": "proved",
   "theorems": [
    "PhpLs.Parser.C15_left_to_right",
    "PhpLs.Parser.C15_tokens_from_source",
    "PhpLs.Parser.C15_diagnostics_from_source",
    "PhpLs.Parser.C15_all_functions"
   ],
   "note": ""
  },
  {
   "property": "C16",
   "status": "proved",
   "theorems": [
    "PhpLs.Parser.C16_trivia_transparent",
    "PhpLs.Parser.triviaOk_of_scan"
   ],
   "note": "For token streams that end with the same token; positions of the other tokens are those of the stream."
  },
  {
   "property": "C17",
   "status": "partial",
   "theorems": [
    "PhpLs.Parser.C17_reads_exactly",
    "PhpLs.Parser.C17_in_order",
    "PhpLs.Parser.C18_parses_to_the_valid_tree",
    "PhpLs.Syntax.C67_expression"
   ],
   "note": "Every operator expression (literals, variables, names, groups, member/static/element access, calls, prefix, infix and postfix operators, ternaries) is read completely and the tree gives back its tokens in order, except the parentheses of groups and the commas of argument lists, which the tree does not store. Array literals, closures, new, match, heredocs and all other operands are covered by C67_expression. Not covered: interpolated strings with several parts, whose tokens are those of C12."
  },
  {
   "property": "C18",
   "status": "proved",
   "theorems": [
    "PhpLs.Parser.C18_exists",
    "PhpLs.Parser.C18_unique",
    "PhpLs.Parser.C18_parses_to_the_valid_tree"
   ],
   "note": "For operands as in C17. The table is the one of the code; see C19 and C55 for its comparison with PHP."
  },
  {
   "property": "C19",
   "status": "partial",
   "theorems": [
    "PhpLs.Parser.C19_chain",
    "PhpLs.Parser.C19_single_partial",
    "PhpLs.Parser.C19_fails_for_every_operator"
   ],
   "note": "The code violates the claim for every operator: chains of two or more operators are always nested to the wrong side. Proved exactly how chains of any length nest."
  },
  {
   "property": "C20",
   "status": "partial",
   "theorems": [
    "PhpLs.Parser.C20_skip",
    "PhpLs.Parser.C20_consume",
    "PhpLs.Parser.C20_end_of_statement",
    "PhpLs.Parser.C20_statement",
    "PhpLs.Parser.ffBefore_eq",
    "PhpLs.Parser.C20_violated_semicolon",
    "PhpLs.Parser.C20_violated_brace"
   ],
   "note": "error_fast_forward and everything that recovers with it stop at the next synchronisation point for every token stream. Operands that take the semicolon themselves, and consume_or_ff_after, skip past one (two witnesses)."
  },
  {
   "property": "C21",
   "status": "partial",
   "theorems": [
    "PhpLs.Parser.C21_modifiers_kept",
    "PhpLs.Parser.C21_all_recorded_iff",
    "PhpLs.Parser.C21_in_order_partial",
    "PhpLs.Parser.C21_property",
    "PhpLs.Parser.C21_fails_static_public",
    "PhpLs.Parser.C21_fails_public_abstract"
   ],
   "note": "The code violates the claim for modifiers in an order other than abstract, final, visibility, static: proved exactly which modifiers of any list are recorded, and that all are recorded if and only if the list is in that order."
  },
  {
   "property": "C22",
   "status": "partial",
   "theorems": [
    "PhpLs.DocBlock.C22_ends",
    "PhpLs.DocBlock.C22_directives_partial",
    "PhpLs.DocBlock.C22_places_partial",
    "PhpLs.DocBlock.C22_param",
    "PhpLs.DocBlock.C22_violated",
    "PhpLs.DocBlock.C22_violated_return",
    "PhpLs.DocBlock.C22_violated_types",
    "PhpLs.DocBlock.C22_violated_crlf"
   ],
   "note": "Reading a doc comment ends and never fails. A comment made of free text and of directives whose types are followed by a name or description on the same line says exactly what the items say, each for itself, with the places of the names. A directive without one swallows the next line; types like int[][], ?int, ...$x and &$x lose the name; carriage return and line feed count as two lines (witnesses)."
  },
  {
   "property": "C23",
   "status": "proved",
   "theorems": [
    "PhpLs.C23_in_range_exact",
    "PhpLs.C23_empty_range",
    "PhpLs.C23_nested",
    "PhpLs.C23_disjoint",
    "PhpLs.C23_range_conversion"
   ],
   "note": ""
  },
  {
   "property": "C24",
   "status": "proved",
   "theorems": [
    "PhpLs.C24_innermost",
    "PhpLs.C24_contains"
   ],
   "note": "For every well-formed arena, every existing start symbol and every position: the search never fails, all symbols on the way down to the answer contain the position, and no child of the answer contains it."
  },
  {
   "property": "C25",
   "status": "partial",
   "theorems": [
    "PhpLs.C25_admits_exactly",
    "PhpLs.C25_unspecified_is_public",
    "PhpLs.C25_ge_total_preorder",
    "PhpLs.C25_gt_asymmetric_partial",
    "PhpLs.C25_fails_gt_asymmetric",
    "PhpLs.C25_gt_iff_not_le",
    "PhpLs.C25_of_token"
   ],
   "note": "The >= test admits exactly the accessible members; the strict order is not asymmetric on \"none\" and \"public\" (witness)."
  },
  {
   "property": "C26",
   "status": "partial",
   "theorems": [
    "PhpLs.Resolver.C26_found",
    "PhpLs.Resolver.C26_unresolved",
    "PhpLs.Resolver.C26_only_partial",
    "PhpLs.Resolver.C26_warned",
    "PhpLs.Resolver.C26_global_exact",
    "PhpLs.Resolver.C26_fails_fallback",
    "PhpLs.Resolver.C26_fails_backslash"
   ],
   "note": "For every name spelled with segments, imported or not: the name that PHP prescribes is found whenever it exists. The code also falls back to the first segment as a global name, so some names are resolved to unrelated classes (witness), and imports with a leading backslash are not found (witness); proved exactly what the answer is."
  },
  {
   "property": "C27",
   "status": "proved",
   "theorems": [
    "PhpLs.Resolver.C27_case"
   ],
   "note": ""
  },
  {
   "property": "C28",
   "status": "partial",
   "theorems": [
    "PhpLs.Resolver.C28_repeatable",
    "PhpLs.Resolver.C28_registered_partial",
    "PhpLs.Resolver.C28_fails_registration"
   ],
   "note": "Answers are the same for every sequence of requests. A name resolved without registration before is not recorded as a reference later (witness); a name resolved for the first time is."
  },
  {
   "property": "C29",
   "status": "partial",
   "theorems": [
    "PhpLs.Resolver.C29_exact",
    "PhpLs.Resolver.C29_inherited",
    "PhpLs.Resolver.C29_parents",
    "PhpLs.Resolver.C29_imported",
    "PhpLs.Resolver.C29_declared_partial",
    "PhpLs.Resolver.C29_fails"
   ],
   "note": "The code violates the claim: inherited members win over those of data types, these over those of traits, these over the declared ones. Proved exactly that, for every hierarchy; of the parents the first in the order of a hash map that has the member wins, of the traits the first one (for classes without insteadof and as)."
  },
  {
   "property": "C30",
   "status": "partial",
   "theorems": [
    "PhpLs.Resolver.C30_members_partial",
    "PhpLs.Resolver.C30_child_partial",
    "PhpLs.Resolver.C30_cyclic_never",
    "PhpLs.Resolver.C30_fails_circle",
    "PhpLs.Resolver.C30_fails_self"
   ],
   "note": "Ends for every acyclic hierarchy, with a bound on the nested calls. For every cyclic one the members are never found; concrete classes for which the code recurses without end."
  },
  {
   "property": "C31",
   "status": "partial",
   "theorems": [
    "PhpLs.Resolver.C31_select",
    "PhpLs.Resolver.C31_crash_iff",
    "PhpLs.Resolver.C31_alias_of",
    "PhpLs.Resolver.C31_alias",
    "PhpLs.Resolver.C31_visibility",
    "PhpLs.Resolver.C31_collected",
    "PhpLs.Resolver.C31_dropped",
    "PhpLs.Resolver.C31_fails"
   ],
   "note": "Proved exactly which member each name means after all rules, that the rules collected from a use statement are those that are written, and that the code crashes exactly if all members of a name are excluded, which it does (witness). An insteadof rule without a class is dropped (C31_dropped)."
  },
  {
   "property": "C32",
   "status": "partial",
   "theorems": [
    "PhpLs.C32_balanced",
    "PhpLs.C32_balanced_file",
    "PhpLs.C32_function_partial",
    "PhpLs.C32_class_partial",
    "PhpLs.C32_this_partial",
    "PhpLs.C32_container",
    "PhpLs.C32_violated_closure",
    "PhpLs.C32_violated_arrow",
    "PhpLs.C32_violated_class",
    "PhpLs.C32_violated_this"
   ],
   "note": "The stack of scopes is balanced for every tree. Nothing leaks from named functions, methods, arrow functions and classes without variables outside of methods. Anonymous functions, assigned arrow functions and defaults of properties leak their variables (witnesses)."
  },
  {
   "property": "C33",
   "status": "proved",
   "theorems": [
    "PhpLs.C33_nested",
    "PhpLs.C33_nodes",
    "PhpLs.C33_descends",
    "PhpLs.C33_order",
    "PhpLs.C33_same",
    "PhpLs.C33_ends"
   ],
   "note": "For every tree and every visitor (any state, may crash), with the calls written down together with the place in the tree."
  },
  {
   "property": "C34",
   "status": "partial",
   "theorems": [
    "PhpLs.C34_clash",
    "PhpLs.C34_parts",
    "PhpLs.C34_violated"
   ],
   "note": "Two symbols have the same place in the table iff their full names are equal up to case, i.e. iff namespaces and names are. Functions and constants get no namespace, so those of different namespaces clash (witness)."
  },
  {
   "property": "C35",
   "status": "proved",
   "theorems": [
    "PhpLs.C35_table",
    "PhpLs.C35_serving_partial",
    "PhpLs.C35_violated_docVar"
   ],
   "note": "C35_table is the claim, for all histories of indexing operations. C35_serving_partial extends it to all notifications and requests, if no comment of the form @var T $x is in the texts; C35_violated_docVar shows that this condition cannot be dropped."
  },
  {
   "property": "C36",
   "status": "partial",
   "theorems": [
    "PhpLs.C36_workspace",
    "PhpLs.C36_index_partial",
    "PhpLs.C36_found",
    "PhpLs.C36_text",
    "PhpLs.C36_violated",
    "PhpLs.C36_violated_variable"
   ],
   "note": "Holds after the start of the server; kept by indexing if the names at the top of the old file are not used by other files. Fails otherwise (two witnesses, one with a variable that has the name of a function). C36_text: which symbols a file has depends on its text only."
  },
  {
   "property": "C37",
   "status": "partial",
   "theorems": [
    "PhpLs.C37_resolve",
    "PhpLs.C37_collect",
    "PhpLs.C37_open",
    "PhpLs.C37_all",
    "PhpLs.C37_change",
    "PhpLs.C37_single",
    "PhpLs.C37_index",
    "PhpLs.C37_close",
    "PhpLs.C37_watched",
    "PhpLs.C37_violated",
    "PhpLs.C37_violated_foreign"
   ],
   "note": "Resolving the names of any file, including @var comments that move symbols, records only references to existing symbols, from every sound state; so do opening and find-references; indexing, closing and changes on the disk keep every recorded reference alive; after a change only references to variables of another opened file can be without symbol, those that went away when the names of that file were resolved again. All histories of an editor with at most one open file and without references requests keep all references alive (C37_single). The full statement is false: find-references leaves references to variables that do not exist any more, and a change of one file leaves those of another open one (witnesses)."
  },
  {
   "property": "C38",
   "status": "partial",
   "theorems": [
    "PhpLs.C38_grouped",
    "PhpLs.C38_files",
    "PhpLs.C38_locations_partial",
    "PhpLs.C38_rename_partial",
    "PhpLs.C38_violated_variable",
    "PhpLs.C38_violated_case",
    "PhpLs.C38_violated_unsaved"
   ],
   "note": "The answer has exactly the places where one of the indexed files that contain the name mentions this symbol. Local variables are new symbols in these files, so their references are not found; uses in another case and unsaved text are missed (witnesses)."
  },
  {
   "property": "C39",
   "status": "partial",
   "theorems": [
    "PhpLs.C39_text_partial",
    "PhpLs.C39_tree_partial",
    "PhpLs.C39_violated_disk",
    "PhpLs.C39_violated_crash",
    "PhpLs.C39_violated_changes",
    "PhpLs.C39_violated_scan"
   ],
   "note": "Holds if documents are opened with the text that is on the disk, notifications have at most one change, and (for the tree) the text can be scanned. Witnesses that each condition is needed."
  },
  {
   "property": "C40",
   "status": "partial",
   "theorems": [
    "PhpLs.C40_change_partial",
    "PhpLs.C40_single_partial",
    "PhpLs.C40_open_partial",
    "PhpLs.C40_violated_stale",
    "PhpLs.C40_violated_duplicates",
    "PhpLs.C40_violated_other"
   ],
   "note": "What is published is the errors of the current text and the findings of this notification. Unscannable texts, several open documents and other documents violate the claim (witnesses)."
  },
  {
   "property": "C41",
   "status": "partial",
   "theorems": [
    "PhpLs.C41_watched_partial",
    "PhpLs.C41_alive_partial",
    "PhpLs.C41_violated_open",
    "PhpLs.C41_violated_crash",
    "PhpLs.C41_violated_deleted"
   ],
   "note": "Every changed file is brought up to date and nothing crashes if none is open and none is deleted. The loop ends at the first open file, crashes at a deleted one, and no file is ever removed."
  },
  {
   "property": "C42",
   "status": "partial",
   "theorems": [
    "PhpLs.C42_sound",
    "PhpLs.C42_complete",
    "PhpLs.C42_nothing",
    "PhpLs.C42_deterministic_partial",
    "PhpLs.C42_violated_order",
    "PhpLs.C42_violated_declaration",
    "PhpLs.C42_hover"
   ],
   "note": "Every answer is the place of the symbol recorded at the cursor, and there is an answer if there is one. If two references cover the position, the order of the hash map decides (witness); on the name of a declaration nothing is found (witness)."
  },
  {
   "property": "C43",
   "status": "proved",
   "theorems": [
    "PhpLs.C43_exact",
    "PhpLs.C43_match"
   ],
   "note": "For every history of notifications and requests without @var comments."
  },
  {
   "property": "C44",
   "status": "partial",
   "theorems": [
    "PhpLs.C44_exact_partial",
    "PhpLs.C44_violated_twice",
    "PhpLs.C44_violated_declaration"
   ],
   "note": "The marks are exactly the places of the references to the symbol at the cursor. The declaration is not marked and some places are marked twice (witnesses)."
  },
  {
   "property": "C45",
   "status": "partial",
   "theorems": [
    "PhpLs.Concurrency.C45_live",
    "PhpLs.Concurrency.C45_isolated",
    "PhpLs.Concurrency.C45_invariant",
    "PhpLs.Concurrency.C45_table_partial",
    "PhpLs.Concurrency.C45_serial",
    "PhpLs.Concurrency.C45_serial_end",
    "PhpLs.Concurrency.C45_requests",
    "PhpLs.Concurrency.C45_references",
    "PhpLs.Concurrency.C45_rename",
    "PhpLs.Concurrency.C45_search_case",
    "PhpLs.Concurrency.C45_violated_rename",
    "PhpLs.Concurrency.Indexing.C45_indexing"
   ],
   "note": "No deadlock and no endless run for all handlers under every schedule; nobody changes the state while another one holds it; what every request alone keeps is kept under every schedule; for all handlers that lock the state once the outcome of every schedule is that of some order without overlap. For references and rename, which lock several times, the answer is given by states since the request arrived, and other requests neither add to nor remove from what is found; that it is the answer in one state is false: C45_violated_rename gives a schedule in which a change between two locks makes rename panic. Trusted: tokio mutexes, tasks and channels behave as in the model; waiting for the client ends."
  },
  {
   "property": "C46",
   "status": "partial",
   "theorems": [
    "PhpLs.Scanner.C46_text_innermost_partial",
    "PhpLs.Parser.C46_innermost_partial",
    "PhpLs.Suggester.C46_found_partial",
    "PhpLs.Suggester.C46_parents",
    "PhpLs.Suggester.Way.ends",
    "PhpLs.Suggester.C46_ends_partial",
    "PhpLs.Suggester.C46_violated_crash",
    "PhpLs.Backend.C46_violated_completion",
    "PhpLs.Suggester.C46_violated_match"
   ],
   "note": "For every tree and position the node found contains the position, none of its children does, and the ancestors are the chain of parents from a top level statement, each but the first containing the position; the search ends, and does not crash if all ranges can be computed. In texts parsed without errors and without the exceptions of C52 it is the innermost node of the tree at the position, and one is found if there is one. A case without statements crashes it, and nodes outside the range of their parent are not found (witnesses)."
  },
  {
   "property": "C47",
   "status": "partial",
   "theorems": [
    "PhpLs.Suggester.C47_offered_partial",
    "PhpLs.Suggester.C47_outside",
    "PhpLs.Suggester.accessible_exact",
    "PhpLs.Suggester.membersOf_exact",
    "PhpLs.Backend.C47_violated_private",
    "PhpLs.Backend.C47_violated_static",
    "PhpLs.Backend.C47_violated_untyped",
    "PhpLs.Backend.C47_violated_arrow",
    "PhpLs.Backend.C47_violated_self"
   ],
   "note": "Exactly what is offered, for every workspace and position; outside of classes only public members. Accessible is decided by name, static properties and constants are not known to be static, and the operator is only known from the last typed character (witnesses)."
  },
  {
   "property": "C48",
   "status": "partial",
   "theorems": [
    "PhpLs.Formatter.C48_whole_document",
    "PhpLs.Formatter.C48_left_alone",
    "PhpLs.Formatter.C48_kept_partial",
    "PhpLs.Formatter.C48_all_kept",
    "PhpLs.Formatter.C48_comments_lost",
    "PhpLs.Formatter.C48_crashes",
    "PhpLs.Formatter.C48_crashes_scan",
    "PhpLs.Formatter.C48_violated_comments",
    "PhpLs.Formatter.C48_violated_html",
    "PhpLs.Formatter.C48_violated_code",
    "PhpLs.Formatter.C48_violated_syntax",
    "PhpLs.Formatter.C48_violated_crash"
   ],
   "note": "The edit replaces exactly the whole document and is made only for error-free open documents (for all documents). For every document the new text shows the kept tokens of the tree in order and without overlapping, and every token of the tree is kept or listed as lost. The rest of the statement is false: comments, text outside of the script and code are lost, and simple documents crash the formatter (witnesses and a theorem for all documents that contain one of ten kinds of statements). Missing: that the new text is parsed to the same tree where nothing is lost, and the exact set of crashing documents."
  },
  {
   "property": "C49",
   "status": "partial",
   "theorems": [
    "PhpLs.CommandLine.C49_file",
    "PhpLs.CommandLine.C49_file_names",
    "PhpLs.CommandLine.C49_dir",
    "PhpLs.CommandLine.C49_dir_names",
    "PhpLs.CommandLine.C49_listed",
    "PhpLs.CommandLine.C49_violated_always",
    "PhpLs.C49_violated"
   ],
   "note": "The claim is false for the code: it parses the name of the file instead of its content. Exactly what is reported is proved: the report is decided by the scanner on the name, the content does not matter, and for every name without an opening tag the report is success; the same for --dir, with one error for each of the listed names that cannot be scanned, and exactly which names are listed. So the claim fails for every file with an error and a usual name (C49_violated_always)."
  },
  {
   "property": "C50",
   "status": "partial",
   "theorems": [
    "PhpLs.Fs.C50_reads_exactly_partial",
    "PhpLs.Fs.C50_unreadable",
    "PhpLs.Fs.C50_fails_iff",
    "PhpLs.Fs.C50_lines_cons",
    "PhpLs.Fs.C50_lines_last"
   ],
   "note": "Exact lines for every range with start <= end; the code panics exactly for end < start and for the full u32 range."
  },
  {
   "property": "C51",
   "status": "proved",
   "theorems": [
    "PhpLs.Fs.C51_nothing_else",
    "PhpLs.Fs.C51_everything",
    "PhpLs.Fs.C51_once",
    "PhpLs.Fs.C51_listing_exact",
    "PhpLs.Fs.C51_failing_entry",
    "PhpLs.Fs.C51_empty_pattern"
   ],
   "note": ""
  },
  {
   "property": "C52",
   "status": "partial",
   "theorems": [
    "PhpLs.Scanner.C52_text_parents_cover",
    "PhpLs.Scanner.C52_text_nodes_ordered",
    "PhpLs.Scanner.C52_text_statements_ordered",
    "PhpLs.Parser.C52_parents_cover",
    "PhpLs.Parser.C52_nodes_ordered",
    "PhpLs.Parser.C52_documented_ordered",
    "PhpLs.Parser.C52_statements_ordered",
    "PhpLs.Parser.C52_crashes_only_at_voids",
    "PhpLs.Parser.C52_voids_crash",
    "PhpLs.Parser.C52_lookup_ends",
    "PhpLs.Parser.C52_violated_crash",
    "PhpLs.Parser.C52_violated_cover"
   ],
   "note": "For every text that is parsed without errors and in which the tokens known to be measured wrongly do not overlap their neighbours, the range of every node ends behind its start, every node covers its children, with the exceptions listed in Gap and Odd (for five of which there are witnesses), and statements are in the order of the text. For every text: the range of a node is undefined exactly because of three kinds of nodes (a case without statements, static without a value, an empty use in a class), which crash always. Missing: texts with syntax errors or overlapping tokens."
  },
  {
   "property": "C53",
   "status": "partial",
   "theorems": [
    "PhpLs.Parser.C53_expands_partial",
    "PhpLs.Parser.C53_one_per_name",
    "PhpLs.Parser.C53_collect_no_crash",
    "PhpLs.Parser.C53_fails_generator",
    "PhpLs.Parser.C53_fails_missing_alias",
    "PhpLs.Parser.C53_fails_reserved_alias",
    "PhpLs.Parser.C53_fails_function_group"
   ],
   "note": "Proved for use statements of any length, with groups of any size, from the tokens through the parser to the imports, for names without reserved words. The code violates the claim for the class Generator (empty local name), for a missing or reserved alias (crash) and for groups of functions or constants (not read)."
  },
  {
   "property": "C54",
   "status": "partial",
   "theorems": [
    "PhpLs.Parser.C54_gap_partial",
    "PhpLs.Parser.C54_identifier_partial",
    "PhpLs.Parser.C54_violated_eof",
    "PhpLs.C54_violated_eof_text",
    "PhpLs.C54_violated_statement",
    "PhpLs.C54_violated_start"
   ],
   "note": "A token missing between two tokens is reported behind the first one, for every token stream. At the end of the file line and column are swapped (for every stream); a missing semicolon is reported at the next token or at the start of the file."
  },
  {
   "property": "C55",
   "status": "partial",
   "theorems": [
    "PhpLs.Parser.C55_two_operators",
    "PhpLs.Parser.C55_prefix_and_infix",
    "PhpLs.Parser.C55_prefix_and_postfix",
    "PhpLs.Parser.C55_infix_partial",
    "PhpLs.Parser.C55_fails_concat",
    "PhpLs.Parser.C55_prefix_exact",
    "PhpLs.Parser.C55_fails_prefix"
   ],
   "note": "Two infix operators of different precedence nest as in PHP except for the string concatenation; a prefix operator and an operator behind its operand nest as in PHP except for an exactly characterised list of pairs, for which the opposite is proved."
  },
  {
   "property": "C56",
   "status": "partial",
   "theorems": [
    "PhpLs.C56_mirror",
    "PhpLs.C56_answers_partial",
    "PhpLs.C56_violated_crash"
   ],
   "note": "The outline mirrors the tree of symbols of the file. It is answered if the known types of the variables exist, which is not so after their file was indexed again (witness of the crash)."
  },
  {
   "property": "C57",
   "status": "partial",
   "theorems": [
    "PhpLs.C57_exact_partial",
    "PhpLs.C57_violated_parent",
    "PhpLs.C57_violated_name"
   ],
   "note": "Exactly which classes are listed. Subclasses of implementing classes, and classes with the name of the interface, are missing (witnesses)."
  },
  {
   "property": "C58",
   "status": "partial",
   "theorems": [
    "PhpLs.Suggester.C58_imports",
    "PhpLs.Suggester.C58_traits",
    "PhpLs.Suggester.C58_names",
    "PhpLs.Suggester.C58_variables_partial",
    "PhpLs.Backend.C58_violated_statement",
    "PhpLs.Backend.C58_violated_static"
   ],
   "note": "Exact for names, imports and traits. Variables are those of the symbol under the cursor, which is not always the function (witness); $this is offered in static methods (witness)."
  },
  {
   "property": "C59",
   "status": "partial",
   "theorems": [
    "PhpLs.Backend.C59_import_partial",
    "PhpLs.Backend.C59_violated_namespace",
    "PhpLs.Backend.C59_violated_first",
    "PhpLs.Backend.C59_violated_place"
   ],
   "note": "Exactly when an edit is added, and what it adds. The namespace of the file is not known and the place may be before the opening tag or inside a string (witnesses)."
  },
  {
   "property": "C60",
   "status": "partial",
   "theorems": [
    "PhpLs.Parser.C60_tokens_kept",
    "PhpLs.Parser.C60_text_kept",
    "PhpLs.Parser.C60_tokens_kept_plain",
    "PhpLs.Parser.dropped_start",
    "PhpLs.Parser.C60_lost_kinds_lost",
    "PhpLs.Parser.C60_kept_case",
    "PhpLs.Parser.C60_plain_case",
    "PhpLs.Parser.C60_violated_static",
    "PhpLs.Parser.C60_violated_interface",
    "PhpLs.Parser.C60_violated_new",
    "PhpLs.Parser.C60_violated_alteration",
    "PhpLs.Parser.C60_violated_member"
   ],
   "note": "For every text that is parsed without an error, every token is in the tree, or of one of 30 kinds that some rule reads without storing them (each with a witness), or dropped in one of five situations (failed class members, trait rules without as or insteadof, static variables without a value, attributes of other things than functions and classes), each with a witness. Texts without classes, interfaces, traits, static and attributes lose nothing else than those kinds. The full statement is false because of the five situations; tokens of the 30 kinds are not followed individually."
  },
  {
   "property": "C61",
   "status": "partial",
   "theorems": [
    "PhpLs.Suggester.C61_keywords",
    "PhpLs.Backend.C61_case",
    "PhpLs.Backend.C61_violated_method",
    "PhpLs.Backend.C61_violated_types",
    "PhpLs.Backend.C61_violated_trait"
   ],
   "note": "For every tree, position and state: a keyword is offered if and only if there is no node at the cursor, the trigger is not $ and the cursor is on the top level of the file (then those that begin a declaration), or the innermost class or block around the node is a class or the block of a class and the node is none of those for which names are offered (then the visibility keywords). The full statement is false: they are offered in empty methods, for types and behind extends, and not in traits (witnesses)."
  },
  {
   "property": "C62",
   "status": "partial",
   "theorems": [
    "PhpLs.C62_text",
    "PhpLs.C62_shown",
    "PhpLs.C62_toplevel",
    "PhpLs.C62_violated_toplevel",
    "PhpLs.C62_violated_unsaved",
    "PhpLs.C62_violated_crash"
   ],
   "note": "For every history of notifications: what is shown are the lines of the declaration of the innermost symbol at the cursor or else of one that is recorded there, read from the file on the disk in which it is declared. At the top level the whole file is always shown instead; the disk may differ from the editor; an incomplete declaration at the end of a file makes hover crash (witnesses)."
  },
  {
   "property": "C63",
   "status": "partial",
   "theorems": [
    "PhpLs.Backend.C63_labels",
    "PhpLs.Backend.C63_items",
    "PhpLs.Collector.C63_function",
    "PhpLs.Collector.C63_method",
    "PhpLs.Collector.C63_rest",
    "PhpLs.Backend.C63_violated_local",
    "PhpLs.Backend.C63_violated_order",
    "PhpLs.Backend.C63_violated_nested",
    "PhpLs.Backend.C63_violated_alias",
    "PhpLs.Backend.C63_violated_constant"
   ],
   "note": "For every answer: every item is $this, a keyword, or shows an existing symbol with its kind and deprecation; exactly functions and methods have a snippet, and it expands to the name and the names of all symbols directly below, as placeholders 1, 2, ... After a file was indexed these begin with the parameters in their order. Missing: they are not only the parameters. Local variables, nested functions and aliases break the claim (witnesses), and a constant is inserted with a dollar sign."
  },
  {
   "property": "C64",
   "status": "partial",
   "theorems": [
    "PhpLs.Scanner.C64_tokens",
    "PhpLs.Scanner.C64_exact_partial",
    "PhpLs.Scanner.C64_document",
    "PhpLs.Scanner.C64_violated_wide",
    "PhpLs.Scanner.C64_violated_return"
   ],
   "note": "For every text in which carriage returns stand before line feeds: the position of every token, and its end if it is measured right (C11), is that of the protocol less the number of characters outside of the basic plane before it on the line; without such characters it is exact. Both conditions are needed (witnesses)."
  },
  {
   "property": "C65",
   "status": "partial",
   "theorems": [
    "PhpLs.Env.C65_links",
    "PhpLs.Env.C65_chain",
    "PhpLs.Env.C65_violated_name",
    "PhpLs.Env.C65_violated_later",
    "PhpLs.Env.C65_violated_parent"
   ],
   "note": "For all chains of any length that begin with a variable, an element of a variable, a name, self, static or parent: the class the chain begins with, the member found for each name, the answer, the recorded references (all of them, and no others) and the reported errors are those of an independent relation; ::class is not looked up. Arguments of calls, subscripts and an assignment at the beginning are dealt with first, in a stated order, and the rest holds for the state after them. Visibility is judged once for the whole chain, which differs from PHP: A::p() inside of A is refused, a private member of another class is accepted behind $this (witnesses)."
  },
  {
   "property": "C66",
   "status": "proved",
   "theorems": [
    "PhpLs.Declared.C66_file",
    "PhpLs.Declared.C66_served",
    "PhpLs.Declared.C66_unique",
    "PhpLs.Declared.C66_violated_closure",
    "PhpLs.Declared.C66_violated_anonymous",
    "PhpLs.Declared.C66_violated_marks"
   ],
   "note": "For all trees and all states: the arena after collect_symbols is the arena before, without the old version of the file, and with exactly the outline that an independent functional relation assigns to the tree. Where this outline differs from PHP is shown by witnesses: parameters of anonymous functions and methods of anonymous classes belong to the symbol around them, static properties and deprecated functions are not marked. Imports, trait rules and parameter lists of the symbols are not part of the outline (C53, C31, C63)."
  },
  {
   "property": "C67",
   "status": "partial",
   "theorems": [
    "PhpLs.Syntax.C67_program",
    "PhpLs.Syntax.C67_fuel",
    "PhpLs.Syntax.C67_unambiguous",
    "PhpLs.Syntax.C67_expression",
    "PhpLs.Syntax.C67_text",
    "PhpLs.Syntax.C67_server",
    "PhpLs.Syntax.C67_violated_rejected",
    "PhpLs.Syntax.C67_violated_accepted",
    "PhpLs.Syntax.C67_violated_semicolon",
    "PhpLs.Syntax.C67_violated_comment",
    "PhpLs.Syntax.C67_symbols",
    "PhpLs.Syntax.C67_violated_tag"
   ],
   "note": "For every program of a grammar that covers nearly all statements, declarations, members and expressions, with text outside of the script and trait adaptations: no error is reported and the tree is the one of the grammar, which is therefore unambiguous; line breaks and line comments may stand anywhere. Missing: a closing tag instead of a semicolon behind an expression, echo tags elsewhere than between two other tags, interpolated heredocs, yield without a value inside of other constructs, comments in front of other statements. The full claim is false: some programs are rejected (also with a closing tag instead of a semicolon behind most statements), a wrong text is accepted, semicolons and comments are misplaced (witnesses)."
  },
  {
   "property": "C68",
   "status": "partial",
   "theorems": [
    "PhpLs.C68_resolve",
    "PhpLs.C68_collect",
    "PhpLs.C68_violated_written",
    "PhpLs.C68_violated_foreign"
   ],
   "note": "For all trees and all states that satisfy the invariant of the server: every recorded place has a reason in an independent relation (a variable or declaration of the name, the current class, a @param comment, a member of the name or of a name given by a trait rule, a name that stands for the full name, a use declaration). The full claim is false: use declarations, aliases and the variable of the current object are recorded as places of the name, and the place of a return type in another file is taken as a place of this file, so that a rename damages it (witnesses)."
  },
  {
   "property": "C69",
   "status": "partial",
   "theorems": [
    "PhpLs.Linked.C69_looked",
    "PhpLs.Linked.C69_linked",
    "PhpLs.Linked.C69_file",
    "PhpLs.Linked.C69_violated_remembered",
    "PhpLs.Linked.C69_violated_expressions",
    "PhpLs.Linked.C69_violated_declarations"
   ],
   "note": "Proved for all trees and states: every name in view (parents and interfaces, types of properties, return types in code and comments, @var types, classes of new, instanceof, static and member accesses, everything in right sides, arguments, array elements and subscripts that is looked through) is looked up, or a class around it is not found; and each name that is looked up is recorded as a reference to the symbol the global table has for it, or reported at its place, or built in, or self, static or parent. A name that was asked for before is recorded or reported all the same (an invariant of the cache), unless its place is that of a name in the head or in a data type of a symbol of the workspace, of a variable, of a type of a @var comment or of a caught exception; these places are given by their range only. The full claim is false: names asked for on the way are remembered without being recorded, so that a class can be renamed without its declaration, and default values, catch types, traits, array keys and others are not in view (witnesses)."
  },
  {
   "property": "C70",
   "status": "partial",
   "theorems": [
    "PhpLs.Syntax.C70_program",
    "PhpLs.Syntax.C70_fuel",
    "PhpLs.Syntax.C70_unambiguous",
    "PhpLs.Syntax.C70_exclusive",
    "PhpLs.Syntax.C70_text",
    "PhpLs.Syntax.C70_server",
    "PhpLs.Syntax.C70_diagnostics",
    "PhpLs.Syntax.C70_violated_lost",
    "PhpLs.Syntax.C70_violated_silent",
    "PhpLs.Syntax.C70_violated_entries"
   ],
   "note": "For all programs in which the semicolons of expressions, return, throw, break, continue, goto, do, namespace, use, echo and print and of the constants, properties and traits of classes are missing, in any number and at any depth of blocks, branches, switches, loops, their alternative forms, try, functions, classes and traits: the tree and the errors are those of the relation Flawed, one error for each, at the token in its place, and one diagnostic for each. The full claim is false: what stands between the place and the next semicolon is lost, also across a closing brace, and behind unset, die, define, declare, static, endif and endswitch nothing is reported, and behind const and global one missing semicolon gives several errors (witnesses). Missing: closures, matches and anonymous classes around the statements."
  },
  {
   "property": "C71",
   "status": "partial",
   "theorems": [
    "PhpLs.Spans.C71_kept",
    "PhpLs.Spans.C71_indexed",
    "PhpLs.Spans.C71_formatted",
    "PhpLs.Spans.C71_checked",
    "PhpLs.Spans.C71_program",
    "PhpLs.Spans.C71_violated_lost",
    "PhpLs.Spans.C71_violated_twice",
    "PhpLs.Spans.C71_violated_commented",
    "PhpLs.Spans.C71_violated_unknown",
    "PhpLs.Spans.C71_violated_block"
   ],
   "note": "For all streams in which every token knows its index, which scanned texts satisfy, and all trees of operators, variables, literals, expression statements and while loops that lie in them, with comments and line breaks anywhere but next to the parentheses of a loop, in front of a body without braces and, for line comments, in a condition: every token is printed once, in order, with only spaces and line breaks added; if no line comment stands within a statement, only comments follow a line comment on its line. For the texts of a small grammar (assignments and operators between variables and literals, while loops, line comments between statements) this is proved from the text on: it is parsed and printed. The full claim is false: comments next to the parentheses and the rest of a condition are lost, a comment is printed twice, code is printed behind line comments, every other kind of statement and every block at the top crashes (witnesses, the last two for all programs)."
  },
  {
   "property": "C72",
   "status": "partial",
   "theorems": [
    "PhpLs.Announce.C72_announced_partial",
    "PhpLs.Announce.C72_violated_commands",
    "PhpLs.Announce.C72_implemented",
    "PhpLs.Announce.C72_triggers",
    "PhpLs.Announce.C72_distinguished",
    "PhpLs.Announce.C72_violated_names"
   ],
   "note": "For every workspace: what is announced is implemented but for commands and folder changes, which are announced and not implemented; what is implemented is announced but for the formatter. A character on which the answer to a completion depends, in any state and at any place, is a trigger. The full claim is false: a name may consist of characters that are no triggers (z, capital letters, digits, all others that are not ASCII), and exactly which characters are triggers is proved."
  },
  {
   "property": "C73",
   "status": "partial",
   "theorems": [
    "PhpLs.Linked.C73_jump",
    "PhpLs.Linked.C73_open",
    "PhpLs.Linked.C73_violated_twin",
    "PhpLs.Linked.C73_violated_quiet"
   ],
   "note": "Proved for every clean state (each state that a history of messages leads to is clean), every file of the workspace and every tree without a @var comment that names a variable: after collect_references every name in view (as in C69) leads at each of its positions, for every order of hash maps, to the name of a symbol recorded there, and the place is recorded for the symbol found; or it is an error among the diagnostics of this file; or it is built in, relative, or at a place that may have been asked for on the way (as in C69, by its range); or a class around it is in one of these cases and not found, or found in another file. C73_open says the same for the message that opens an indexed file, in every state that a history of messages leads to. The full claim is false in the last two cases: what stands in a class that two files declare is recorded for the other file, and a name in the head of a class may be remembered from a look up that recorded nothing (witnesses)."
  },
  {
   "property": "C74",
   "status": "partial",
   "theorems": [
    "PhpLs.C74_declared",
    "PhpLs.C74_symbols_partial",
    "PhpLs.C74_outline_partial",
    "PhpLs.C74_violated_arrow",
    "PhpLs.C74_violated_namespace"
   ],
   "note": "The claim is false for the code: the range of an arrow function by reference starts at the & behind the keyword it is shown by, and a namespace in the body of a function gets the range of the name of the function. Proved for all texts without syntax errors whose tokens do not overlap (C11), for all other declarations at any depth whose last part has a range of its own and whose comment stands in front: for the declarations of the tree, for the symbols that are collected in any state of the server, and for the answer. Missing: namespaces at the top of a file, texts with errors."
  },
  {
   "property": "C75",
   "status": "partial",
   "theorems": [
    "PhpLs.Env.C75_assignment",
    "PhpLs.Env.C75_use",
    "PhpLs.Env.C75_first",
    "PhpLs.Env.C75_foreach",
    "PhpLs.Env.C75_comment",
    "PhpLs.Env.C75_argument",
    "PhpLs.Env.C75_catch",
    "PhpLs.Env.C75_use_named",
    "PhpLs.Env.C75_caught",
    "PhpLs.Env.C75_violated_again",
    "PhpLs.Env.C75_violated_argument",
    "PhpLs.Env.C75_violated_nested",
    "PhpLs.Env.C75_violated_caught",
    "PhpLs.Linked.C75_stays",
    "PhpLs.Linked.C75_lasting",
    "PhpLs.Linked.C75_first_lasting",
    "PhpLs.Linked.C75_argument_lasting"
   ],
   "note": "For all states whose nodes are all there: behind an assignment, a comment, an argument, in a loop and in a block that catches an exception the data types of the variable are exactly those known before and the new ones (for a loop, an argument and a caught exception only the new ones), and no other variable and no other symbol changes; the place is recorded, except for the item of a loop and a caught exception. A use leads to the first class that is known, not to the last; a type known only by its name is looked up at the use. So the full claim is false for a variable that is assigned again, also for an argument, for an assignment inside of an expression and for an exception of one of several types (witnesses); behind a first assignment it holds (C75_first), also for a caught exception of one type (C75_caught). What is known of a variable stays, in the same order, behind any statements in which no loop and no catch gives the name anew and no function has a parameter of the name, so that all uses lead to the class that was said first (C75_lasting, C75_first_lasting, C75_argument_lasting)."
  },
  {
   "property": "C76",
   "status": "partial",
   "theorems": [
    "PhpLs.Linked.C76_seen",
    "PhpLs.Linked.C76_accessed",
    "PhpLs.Linked.C76_file",
    "PhpLs.Linked.C76_open",
    "PhpLs.Linked.C76_change",
    "PhpLs.Linked.C76_violated_undeclared",
    "PhpLs.Linked.C76_violated_closure",
    "PhpLs.Linked.C76_violated_hidden"
   ],
   "note": "Proved for all trees, states and files: every variable in view of the walk, and every variable assigned to, is recorded as a use of the symbol that its name stands for when it is met, or a class around it is looked up and not found; every variable in view in a member access, in the right side of an assignment or in its target is so too, or its name stands for nothing when it is met. C76_open and C76_change say this for the references that the state keeps behind the messages that open and change a file. The full claim is false: a member access of a variable of which nothing is known is not recorded; the parameters of a closure on the right side of an assignment and the variables behind use are not, and their uses are taken for those of the function around; keys of arrays there, names of members, strings and the variable of a catch are not (witnesses)."
  },
  {
   "property": "C77",
   "status": "partial",
   "theorems": [
    "PhpLs.Linked.C77_steady",
    "PhpLs.Linked.C77_one",
    "PhpLs.Linked.C77_sequence",
    "PhpLs.Linked.C77_body",
    "PhpLs.Linked.C77_parameter",
    "PhpLs.Linked.C77_file",
    "PhpLs.Linked.C77_top",
    "PhpLs.Linked.C77_open",
    "PhpLs.Linked.C77_accessed",
    "PhpLs.Linked.C77_then",
    "PhpLs.Linked.C77_then_body",
    "PhpLs.Linked.C77_then_top",
    "PhpLs.Linked.C77_change",
    "PhpLs.Linked.C77_change_top",
    "PhpLs.Linked.C77_answers",
    "PhpLs.Linked.C77_answers_open",
    "PhpLs.Linked.C77_answers_change",
    "PhpLs.Linked.C77_violated_loop",
    "PhpLs.Linked.C77_violated_catch",
    "PhpLs.Linked.C77_violated_arrow"
   ],
   "note": "Proved for all trees, names, states and files: the walk keeps the symbol that a name stands for unless a loop, a catch or a parameter gives the name anew; hence any two places of a variable in a run of statements (the body of a function, the statements of a file) without such a node are uses of one symbol, or a class around them is looked up and not found, and of the symbol of the parameter if there is one; the same for the references kept for a file. These are the places where the variable itself stands or is assigned to; those inside member accesses, targets and right sides of assignments are uses of the same symbol if a statement before has a place of the first kind (C77_accessed, C77_then and what follows from them). C77_answers: the definition and the edits of a rename are then the same at all these places, where no other symbol is recorded. The full claim is false: a loop or a catch that gives the name anew makes it two symbols behind, and a variable used in an arrow function before it is assigned around it is two symbols (witnesses)."
  }
 ]
}