{"id": "C01", "title": "Scanning any text always ends", "statement": "Scanning a source text always stops: it either returns a token list or an error message, whatever the text contains, and every turn of the scan loop consumes at least one character.", "quantifier": "every source text (any length, any characters)", "why_tests_cant": "The set of texts is infinite and each construct (heredoc, comment, string, number) has its own loop; tests only visit a few texts.", "anchors": ["src/parser/scanner.rs: Scanner::scan, tokenize_here_doc, collect_*"]}
{"id": "C02", "title": "Document range is the end of the text", "statement": "After a successful scan the document range reported to the editor (used as the range of the whole-document formatting edit) starts at line 0 column 0 and ends at line = number of newlines, column = number of non-CR characters after the last newline.", "quantifier": "every source text that scans without error", "why_tests_cant": "Position bookkeeping is spread over every branch of the scanner; a single branch that forgets a character shifts everything behind it only on texts that use that branch.", "anchors": ["src/parser/scanner.rs: Scanner::document_range, advance; src/backend/formatting.rs"]}
{"id": "C03", "title": "Token positions follow the text order", "statement": "The start positions of the tokens of a file are non-decreasing in (line, column) order and never lie behind the end of the document.", "quantifier": "every source text that scans without error", "why_tests_cant": "Needs an invariant over the whole scan, including token merging (casts, yield from) that rewrites already emitted tokens.", "anchors": ["src/parser/scanner.rs: Scanner::scan, push_token, push_named_token"]}
{"id": "C04", "title": "Carriage returns are irrelevant", "statement": "A file saved with CRLF line endings yields the same tokens at the same positions as the same file saved with LF line endings.", "quantifier": "every source text", "why_tests_cant": "Any branch that peeks at a raw character can treat CR differently from LF; only a simulation over all texts rules it out.", "anchors": ["src/parser/scanner.rs: advance, peek, tokenize_here_doc, consume_line_comment"]}
{"id": "C05", "title": "Text outside of PHP tags is ignored", "statement": "Text before the first opening tag or after a closing tag produces no tokens; the number of tokens produced does not depend on what that text is, as long as it contains no opening tag.", "quantifier": "every HTML text without an opening tag", "why_tests_cant": "HTML is arbitrary text; tests use a handful of harmless fragments.", "anchors": ["src/parser/scanner.rs: Scanner::scan, push_token, push_named_token"]}
{"id": "C06", "title": "String literals keep their exact content", "statement": "A single-quoted, double-quoted or backtick literal is scanned to one token whose text is exactly the characters between the quotes (escapes untouched), and scanning continues directly behind the closing quote.", "quantifier": "every string body whose quotes are escaped, in any surrounding text", "why_tests_cant": "The escape automaton has to be right for all runs of backslashes and quotes of any length.", "anchors": ["src/parser/scanner.rs: collect_until_escaped, collect_encapsed_and_whitespace_string"]}
{"id": "C07", "title": "Words are scanned by maximal munch and keywords are case-insensitive", "statement": "A maximal run of identifier characters is scanned as one token; it is a keyword iff its lower-cased spelling is in the keyword table, so changing the case of a word never changes the token kind (INF and NAN excepted by design), and non-keywords keep their exact spelling.", "quantifier": "every identifier spelling, in every case variant, followed by any text not starting with an identifier character", "why_tests_cant": "There are 2^n spellings of every keyword and unboundedly many identifiers.", "anchors": ["src/parser/scanner.rs: Scanner::scan (identifier branch), map_keyword, collect_identifer"]}
{"id": "C08", "title": "Operators are scanned by longest match", "statement": "Wherever an operator of the language starts, the scanner produces the longest operator of the operator table that is a prefix of the remaining text.", "quantifier": "every pair of operator and following text", "why_tests_cant": "There are 50 operators sharing prefixes and unboundedly many continuations.", "anchors": ["src/parser/scanner.rs: Scanner::scan (operator branches)"]}
{"id": "C09", "title": "Comments do not swallow code", "statement": "A line comment ends at the end of its line or at the closing tag, whichever is first, and a block comment ends at the first `*/`; the text behind it is scanned as code.", "quantifier": "every comment text and every text behind it", "why_tests_cant": "The boundary conditions (empty comment, comment directly followed by newline or closing tag, `?` inside of the comment) multiply with arbitrary content.", "anchors": ["src/parser/scanner.rs: consume_line_comment, collect_doc_comment_information"]}
{"id": "C10", "title": "Token offsets index the token list", "statement": "The offset recorded in a token is its index in the token list, so a formatter or extractor can go from a token to its neighbours.", "quantifier": "every source text that scans without error", "why_tests_cant": "Holds only if every path that removes tokens (casts, yield from) keeps the numbering; needs an invariant over all texts.", "anchors": ["src/parser/scanner.rs: push_token, push_named_token; src/formatter/v2.rs: Span"]}
{"id": "C11", "title": "The range of a scanned token never crashes and covers its source text", "statement": "Computing the range of any token the scanner produced succeeds and its end is the position where the scanner stopped reading the token.", "quantifier": "every token of every source text that scans without error", "why_tests_cant": "Depends on kind and label of each token for all labels (non-ASCII, multi-line, empty).", "anchors": ["src/parser/token.rs: Token::end, Display for Token/TokenType; src/parser/mod.rs: Parser::next"]}
{"id": "C12", "title": "A heredoc ends at its terminator line", "statement": "A heredoc with marker M contains exactly the lines up to the first line which consists of optional blanks and M; the code behind the terminator is scanned as code.", "quantifier": "every marker, every heredoc body, every text behind", "why_tests_cant": "The matcher interleaves with the reader character by character, so failures need bodies that share prefixes with the marker.", "anchors": ["src/parser/scanner.rs: tokenize_here_doc"]}
{"id": "C13", "title": "Parsing any token stream always ends", "statement": "Parsing always stops, also for incomplete or wrong code (a language server parses after each keystroke).", "quantifier": "every token stream the scanner can produce", "why_tests_cant": "Non-termination shows up only for particular malformed prefixes; tests of valid code never reach the recovery loops.", "anchors": ["src/parser/mod.rs: Parser::ast, statement, block, error_fast_forward; src/parser/ast/*.rs"]}
{"id": "C14", "title": "Syntax errors never make the parser fail", "statement": "Parsing never aborts with an error: for every token stream it delivers a list of statements plus a list of diagnostics; only the scanner can make a file unparsable.", "quantifier": "every token stream on which the parser stops", "why_tests_cant": "The error can surface through any of about 70 mutually recursive functions.", "anchors": ["src/parser/mod.rs: Parser::ast"]}
{"id": "C15", "title": "The parser consumes the tokens strictly from left to right", "statement": "Each parse function leaves a suffix of the tokens it was given (up to pushing back a token it just read): tokens are never reordered, duplicated or invented, and diagnostics are only ever appended.", "quantifier": "every parse function, every token stream, every nesting depth", "why_tests_cant": "An invariant of the whole mutually recursive parser; a test looks at single runs.", "anchors": ["src/parser/mod.rs: next, peek, consume*, error_fast_forward; src/parser/ast/*.rs"]}
{"id": "C16", "title": "Line comments and line breaks are transparent to the parser", "statement": "Inserting or removing line comments and line breaks anywhere between tokens does not change the syntax tree or the diagnostics except for the positions of missing tokens.", "quantifier": "every token stream and every placement of comments and line breaks", "why_tests_cant": "Combinatorial: any number of trivia tokens at any of the gaps.", "anchors": ["src/parser/mod.rs: peek, next"]}
{"id": "C17", "title": "Expression parsing loses nothing", "statement": "For every well-formed operator expression the syntax tree, read in order, gives back exactly the tokens of the expression, and parsing stops exactly behind it.", "quantifier": "every sequence of operands and prefix, infix and postfix operators, any length and nesting", "why_tests_cant": "Unbounded nesting and all operator combinations.", "anchors": ["src/parser/ast/expressions.rs: expression"]}
{"id": "C18", "title": "Operator precedence is respected", "statement": "In the tree of an operator expression, an operator is nested below another one only if the precedence table allows it, i.e. the tree is the unique one that the precedence and associativity table defines.", "quantifier": "every operator expression, any length", "why_tests_cant": "All pairs and chains of about 45 operators; unit tests check a few.", "anchors": ["src/parser/ast/expressions.rs: expression; src/parser/token.rs: infix_binding_power, prefix_binding_power, postfix_binding_power"]}
{"id": "C19", "title": "Operators associate as in PHP", "statement": "Chains of `-`, `.`, `/`, `%`, shifts and the like nest to the left and chains of assignments, `**` and `??` nest to the right, as the PHP manual says.", "quantifier": "chains of any length of each operator", "why_tests_cant": "Chain length is unbounded and each operator has its own table entry.", "anchors": ["src/parser/token.rs: infix_binding_power; src/parser/ast/expressions.rs: expression"]}
{"id": "C20", "title": "Error recovery stops at a synchronisation point", "statement": "After an error, the parser skips tokens only up to the next semicolon, closing brace or opening tag (or the end); it never skips over one of them.", "quantifier": "every token stream and every error position", "why_tests_cant": "Arbitrary garbage of any length between error and synchronisation point.", "anchors": ["src/parser/mod.rs: error_fast_forward, consume, consume_or_ff_after"]}
{"id": "C21", "title": "Class member modifiers are all kept, in any order", "statement": "The visibility, static, abstract and final modifiers written before a class member are all recorded, in whatever order they are written.", "quantifier": "every permutation of the allowed modifiers", "why_tests_cant": "PHP allows any order; the existing tests only use one.", "anchors": ["src/parser/ast/classes.rs: class_block_statement"]}
{"id": "C22", "title": "Doc comment directives are independent of each other", "statement": "Each @param, @return, @var, @property and @deprecated line of a doc comment contributes exactly its own types, name and description, whatever the neighbouring lines are; reading a doc comment always ends.", "quantifier": "every doc comment text", "why_tests_cant": "Doc comments are free text; the interaction of directives on neighbouring lines is unbounded.", "anchors": ["src/parser/ast/comments.rs: DocBlockScanner"]}
{"id": "C23", "title": "Cursor-in-range test is exact", "statement": "A position is considered inside of a range iff start <= position <= end in (line, character) order, for ranges on one or more lines.", "quantifier": "all positions and all ranges", "why_tests_cant": "Four branches over six unbounded numbers; off-by-one errors hide at the boundary lines.", "anchors": ["src/environment/mod.rs: in_range"]}
{"id": "C24", "title": "Symbol under cursor is the innermost one", "statement": "The symbol found at a position contains the position, so do all symbols on the way up, and none of its own child symbols that qualify contains the position.", "quantifier": "all symbol trees and positions", "why_tests_cant": "Trees of unbounded depth and width.", "anchors": ["src/environment/symbol.rs: Symbol::symbol_at"]}
{"id": "C25", "title": "Visibility comparison admits exactly the accessible members", "statement": "Comparing a member's visibility with the required minimum admits private members only for private access, protected ones for private and protected access, and public or unspecified ones always; the comparison is reflexive, total and transitive, and a > b and b > a never hold at the same time.", "quantifier": "all pairs and triples of visibilities", "why_tests_cant": "Order laws are universally quantified statements over pairs and triples.", "anchors": ["src/environment/symbol.rs: PartialOrd for Visibility"]}
{"id": "C26", "title": "Type references are resolved by the PHP name rules", "statement": "A class name is resolved in the order fully qualified name, import (alias), current namespace, and otherwise reported unresolved; a name that matches nothing is never resolved to an unrelated symbol.", "quantifier": "all type references, import lists, namespaces and global symbol tables", "why_tests_cant": "Four interacting lookup tables of unbounded size.", "anchors": ["src/environment/visitor/name_resolver.rs: NameResolver::resolve_type_ref; src/parser/node.rs: TypeRef"]}
{"id": "C27", "title": "Name resolution ignores case", "statement": "Changing the case of a class name or of an import at its use does not change what it resolves to.", "quantifier": "all spellings of all names", "why_tests_cant": "2^n spellings per name.", "anchors": ["src/environment/visitor/name_resolver.rs: resolve_type_ref; src/backend/mod.rs: collect_symbols"]}
{"id": "C28", "title": "Resolving a name is repeatable and registers each reference", "statement": "Resolving the same type reference again gives the same symbol, and after resolving with reference registration, the reference is found by find-references no matter whether the name was looked at before.", "quantifier": "all sequences of resolutions in one file and across files", "why_tests_cant": "Depends on the history of the cache, i.e. on sequences of calls.", "anchors": ["src/environment/visitor/name_resolver.rs: resolve_type_ref (resolved cache)"]}
{"id": "C29", "title": "A member defined in the class wins over an inherited one", "statement": "Looking up a member by name in a class gives the member declared in the class itself if there is one, else the one from its traits, else the inherited one.", "quantifier": "all class hierarchies and member names", "why_tests_cant": "Hierarchies of any depth and width.", "anchors": ["src/environment/symbol.rs: get_all_symbols, get_inherited_symbols, get_imports"]}
{"id": "C30", "title": "Inheritance queries always end", "statement": "Collecting the members of a class and asking whether it is a child of another class stop for every set of class declarations the user may type, including cyclic ones.", "quantifier": "all inheritance graphs", "why_tests_cant": "Cyclic graphs of any cycle length are legal input while editing.", "anchors": ["src/environment/symbol.rs: get_all_symbols, get_inherited_symbols, is_child_of"]}
{"id": "C31", "title": "Trait conflict rules select one member and never crash", "statement": "For each member name, the insteadof rules remove exactly the losing traits' members, and the `as` rules add aliases; the result has at most one entry per name and the computation never crashes.", "quantifier": "all sets of traits, members and alteration rules", "why_tests_cant": "Rules and traits combine freely.", "anchors": ["src/environment/symbol.rs: get_imports"]}
{"id": "C32", "title": "Variable scopes are balanced", "statement": "Walking any syntax tree leaves the scope stack as it was; variables declared inside of a function, method or class are not visible behind it.", "quantifier": "every syntax tree", "why_tests_cant": "Unbounded nesting; requires an invariant over the traversal.", "anchors": ["src/environment/visitor/name_resolver.rs: NameResolver::push_scope, pop_scope, before, after; src/environment/traverser.rs"]}
{"id": "C33", "title": "Tree traversal visits every reachable node once in source order", "statement": "Traversing a tree calls before, visit and after in properly nested order, descends exactly when the visitor asks for it and visits each node at most once.", "quantifier": "every syntax tree and every visitor", "why_tests_cant": "All visitors and all tree shapes.", "anchors": ["src/environment/traverser.rs: traverse"]}
{"id": "C34", "title": "Names of symbols are independent of their spelling variants", "statement": "Two symbols clash in the global table iff their fully qualified names are equal up to case.", "quantifier": "all names and namespaces", "why_tests_cant": "Unbounded strings.", "anchors": ["src/environment/symbol.rs: fqdn, normalized_name, fqdn_matches; src/backend/mod.rs: collect_symbols"]}
{"id": "C35", "title": "Global symbol table never dangles", "statement": "After any sequence of indexing and re-indexing of files, each entry of the global symbol table refers to a symbol that currently exists, belongs to a currently indexed file and has that name.", "quantifier": "all histories of indexing operations over all files", "why_tests_cant": "Dangling entries only appear after particular sequences of edits over several files.", "anchors": ["src/backend/mod.rs: collect_symbols"]}
{"id": "C36", "title": "Every indexed symbol can be found by its name", "statement": "After any history, each global class, function or constant of an indexed file is reachable through the global table by its fully qualified name.", "quantifier": "all histories of indexing operations over all files", "why_tests_cant": "Needs interleavings over at least two files.", "anchors": ["src/backend/mod.rs: collect_symbols"]}
{"id": "C37", "title": "References never point to deleted symbols", "statement": "After any history of opening, editing, closing, find-references and rename requests, all recorded references refer to symbols that exist.", "quantifier": "all histories of requests", "why_tests_cant": "Dangling ids appear only after particular orders of requests.", "anchors": ["src/backend/mod.rs: collect_references, references_of_symbol_under_cursor, collect_symbols"]}
{"id": "C38", "title": "Find references and rename cover all uses", "statement": "Find-references and rename on a symbol return all recorded references of this symbol in all files and nothing else, also for local variables.", "quantifier": "all symbol tables and histories", "why_tests_cant": "Depends on identity of symbols across re-collection.", "anchors": ["src/backend/mod.rs: references, rename, references_of_symbol_under_cursor, collect_references"]}
{"id": "C39", "title": "The server works on the latest text of a document", "statement": "After any sequence of open, change and close notifications, the text the server uses for an open document is the last text the client sent.", "quantifier": "all histories of document notifications, any number of change events per notification", "why_tests_cant": "Histories are unbounded.", "anchors": ["src/backend/did_open.rs, did_change.rs, did_close.rs; src/backend/mod.rs: refresh_file"]}
{"id": "C40", "title": "Diagnostics describe the current state of each file once", "statement": "After any history, the diagnostics published for an open file are exactly the parse errors and resolver findings of its current text, without stale or duplicated entries.", "quantifier": "all histories of document notifications over several open files", "why_tests_cant": "Duplicates only accumulate over sequences with at least two open files.", "anchors": ["src/backend/mod.rs: refresh_file, collect_references; src/backend/did_open.rs, did_change.rs"]}
{"id": "C41", "title": "File system changes are picked up completely", "statement": "A watched-files notification brings every changed file that is not open up to date, removes deleted files from the index, and never crashes.", "quantifier": "all lists of file events and all states", "why_tests_cant": "Order and kind of events combine freely.", "anchors": ["src/backend/did_change_watched_files.rs"]}
{"id": "C42", "title": "Go to definition is sound and deterministic", "statement": "Go-to-definition and hover answer with a symbol which has a recorded reference covering the cursor or whose own name is at the cursor; if there is one there is an answer, and the answer does not depend on hash map order.", "quantifier": "all symbol tables, reference tables, positions and iteration orders", "why_tests_cant": "Hash map order is random per process.", "anchors": ["src/backend/goto_definition.rs, src/backend/hover.rs; src/backend/mod.rs: symbol_under_cursor, referenced_symbol_under_cursor"]}
{"id": "C43", "title": "Workspace symbol search returns exactly the matching symbols", "statement": "The result contains exactly the symbols whose name matches the query ignoring case, each with its own file and range.", "quantifier": "all symbol trees and queries", "why_tests_cant": "Unbounded forests and queries.", "anchors": ["src/backend/symbol.rs"]}
{"id": "C44", "title": "Highlights are exactly the references in this document", "statement": "Document highlight marks all places of the current document that refer to the symbol under the cursor including its declaration if it is in this document, and nothing in other documents' coordinates.", "quantifier": "all reference tables and positions", "why_tests_cant": "Depends on arbitrary reference tables over several files.", "anchors": ["src/backend/document_highlight.rs"]}
{"id": "C45", "title": "Requests leave the shared state usable under every schedule", "statement": "Handlers run concurrently on one mutex-protected state; no schedule leads to a deadlock and every request sees a state between two complete handler runs.", "quantifier": "all interleavings of handlers", "why_tests_cant": "Schedules are unbounded and not controllable in tests.", "anchors": ["src/backend/mod.rs: Backend, BackendState"]}
{"id": "C46", "title": "Completion finds the node at the cursor", "statement": "The node used for completion contains the cursor, none of its children contains it, and the reported ancestors are its parent chain up to a top level statement.", "quantifier": "all syntax trees and positions", "why_tests_cant": "Unbounded trees.", "anchors": ["src/suggester/mod.rs: find, get_suggestions_at"]}
{"id": "C47", "title": "Completion offers only accessible members", "statement": "Members offered behind `->` or `::` are exactly the ones of the class that are accessible from the current context and fit the operator (static or not).", "quantifier": "all classes, members and contexts", "why_tests_cant": "All combinations of visibility, static, context and inheritance.", "anchors": ["src/suggester/mod.rs: suggest_members_of_symbol and friends"]}
{"id": "C48", "title": "Formatting does not lose code", "statement": "Formatting an error-free document keeps all its code and comments; it replaces exactly the whole document and never crashes.", "quantifier": "all documents", "why_tests_cant": "All syntax combinations and all comment placements.", "anchors": ["src/backend/formatting.rs; src/formatter/mod.rs: format_file, format"]}
{"id": "C49", "title": "Command line check reports the errors of the file", "statement": "`--file F` reports a parse error iff the content of F has one.", "quantifier": "all file names and contents", "why_tests_cant": "Depends on the content of files.", "anchors": ["src/main.rs: main"]}
{"id": "C50", "title": "Reading a line range of a file", "statement": "Reading lines a..b of a file returns exactly those lines and never crashes.", "quantifier": "all files and all line numbers a, b", "why_tests_cant": "Unbounded numbers; boundary arithmetic.", "anchors": ["src/environment/fs.rs: file_read_range"]}
{"id": "C51", "title": "Workspace scan finds every PHP file outside of the ignored folders", "statement": "Listing the workspace returns each PHP file that is not below an ignored folder exactly once and nothing else.", "quantifier": "all directory trees and ignore lists", "why_tests_cant": "Unbounded trees.", "anchors": ["src/environment/fs.rs: reindex_folder"]}
{"id": "C52", "title": "Tree ranges are consistent", "statement": "Computing the range of a node of a parsed tree never crashes, and the range of a parent covers the ranges of its children, so that position lookups can descend.", "quantifier": "all syntax trees", "why_tests_cant": "Over 90 node kinds, unbounded nesting.", "anchors": ["src/parser/node.rs: Node::range, Node::children"]}
{"id": "C53", "title": "Imports are expanded correctly", "statement": "A use statement, plain, grouped, aliased or nested, yields one import per imported name with the full path prefix and the right local name, and never crashes on parsed code.", "quantifier": "all use statements", "why_tests_cant": "Grouping nests and paths are unbounded.", "anchors": ["src/environment/import.rs: collect_uses, SymbolImport; src/parser/node.rs: TypeRef::append"]}
{"id": "C54", "title": "Missing tokens are reported where they are missing", "statement": "A diagnostic about a missing token carries the line and column at which the token is missing, also at the end of the file.", "quantifier": "all truncated programs", "why_tests_cant": "Each truncation point of each program.", "anchors": ["src/parser/mod.rs: Parser::new, consume, consume_identifier; src/parser/token.rs: Token::missing"]}
{"id": "C55", "title": "Operators bind as tightly as in PHP", "statement": "For two operators around an operand, prefix, infix or postfix, the operand goes to the one that binds tighter according to the PHP manual.", "quantifier": "every pair of operators and all operands", "why_tests_cant": "About two thousand pairs, each around arbitrary operands.", "anchors": ["src/parser/token.rs: prefix_binding_power, infix_binding_power, postfix_binding_power; src/parser/ast/expressions.rs: expression"]}
{"id": "C56", "title": "The outline of a document mirrors its declarations", "statement": "The document symbols of a file are exactly the symbols declared in it, each with its own name, kind and range and nested as they are declared; the request never crashes the server.", "quantifier": "all server histories and all files", "why_tests_cant": "The outline follows references into other files; whether these are still alive depends on the whole history of edits.", "anchors": ["src/backend/document_symbol.rs; src/environment/symbol.rs: to_doc_sym, detail"]}
{"id": "C57", "title": "Go-to-implementation lists exactly the implementing classes", "statement": "The implementations of an interface are exactly the classes that implement it, by naming it, by naming an interface that extends it, or by extending a class that does; for a method, its namesakes in these classes.", "quantifier": "all workspaces and hierarchies", "why_tests_cant": "Hierarchies of any depth over any number of files.", "anchors": ["src/backend/goto_implementation.rs"]}
{"id": "C58", "title": "Completion of names and variables offers what can stand there", "statement": "Where a name is expected exactly the known symbols are offered whose name begins with the typed text: after `use` by their full name, after `use` in a class traits only; where a variable is expected exactly the variables and parameters of the function, and `$this` where it exists.", "quantifier": "all workspaces, typed texts and scopes", "why_tests_cant": "All symbol tables and scopes.", "anchors": ["src/suggester/mod.rs: suggest_imports_starting_with, suggest_traits_starting_with, suggest_symbol_starting_with, suggest_variables_of_scope"]}
{"id": "C59", "title": "Accepting a class adds the import it needs", "statement": "A class or trait that is offered comes with one edit that adds its `use` statement at a place where such a statement may stand, if and only if it is in another namespace than the file and not imported yet.", "quantifier": "all files, classes and namespaces", "why_tests_cant": "All layouts of files and combinations of imports.", "anchors": ["src/backend/completion.rs: completion"]}
{"id": "C60", "title": "The tree holds every token of the text", "statement": "If a file is parsed without a diagnostic, every token of its text is stored in some node of the tree, apart from comments, separators and the keywords a rule reads without storing them; so hover, definition, references, rename and the formatter can see all of the code.", "quantifier": "all texts that are parsed without an error", "why_tests_cant": "Every grammar rule and every nesting of rules may drop a token; a test only sees the rules it uses.", "anchors": ["src/parser/mod.rs: Parser::ast, statement, next, consume", "src/parser/ast/classes.rs: class_block_statement", "src/parser/ast/functions.rs", "src/parser/ast/expressions.rs: primary"]}
{"id": "C61", "title": "Keywords are offered where they may stand", "statement": "Completion offers the keywords that begin a declaration exactly on the top level of a file, and the visibility keywords exactly where a member of a class may begin; nowhere else is a keyword offered.", "quantifier": "all trees, positions, trigger characters and states of the server", "why_tests_cant": "Every nesting of nodes around the cursor is a separate case.", "anchors": ["src/suggester/mod.rs: get_suggestions_at, suggest_keywords"]}
{"id": "C62", "title": "Hover shows the declaration of what is under the cursor", "statement": "Hovering over a name shows exactly the lines of the declaration of the symbol that the name means, from the file in which it is declared, and never crashes; where no symbol is meant nothing is shown.", "quantifier": "all workspaces, histories of notifications, positions, and contents of the disk", "why_tests_cant": "Every arrangement of declarations and references over files and lines is a separate case, and so is every state of the disk that differs from the editor.", "anchors": ["src/environment/symbol.rs: hover_text", "src/backend/hover.rs"]}
{"id": "C63", "title": "A completion item inserts a call with the parameters of the function", "statement": "Every completion item shows the kind of the symbol it stands for and whether that symbol is deprecated. Choosing a function or a method inserts a snippet that is its name followed by its parameters in the order in which they are declared, each of them a placeholder, numbered from 1; choosing anything else inserts the label.", "quantifier": "all workspaces, histories of notifications, positions and trigger characters", "why_tests_cant": "Every list of parameters, every body with local symbols and every order in which files are indexed, opened and resolved is a separate case.", "anchors": ["src/environment/symbol.rs: completion_item, parameters, parameters_as_snippets", "src/backend/completion.rs", "src/environment/visitor/workspace_symbol.rs: visit"]}
{"id": "C64", "title": "Positions are counted as the protocol counts them", "statement": "Every position that the scanner gives to a token is the position of the token in the text as the language server protocol defines it: lines end with a line feed, a carriage return or both, and columns are counted in UTF-16 units.", "quantifier": "all texts", "why_tests_cant": "Tests use ASCII texts with line feeds; the claim is about every character of every text.", "anchors": ["src/parser/scanner.rs: advance, push_token", "src/environment/mod.rs: get_range"]}
{"id": "C65", "title": "The names of a member access are linked to the members PHP uses", "statement": "In a chain of member accesses each name is looked up, ignoring case, among the members of the class that the chain has reached; the name is recorded as a reference to the member found; a name that is missing or that must not be used from there is reported and nothing is recorded for it; the word class behind a double colon is not looked up.", "quantifier": "all classes, all chains of any length, all states of the resolver", "why_tests_cant": "Tests look at a few chains; the claim is about every chain over every set of classes.", "anchors": ["src/environment/visitor/name_resolver.rs: resolve_member_type"]}
{"id": "C66", "title": "The symbols of a file are its declarations", "statement": "Whenever a file is read, the symbols below it are exactly the declarations of its tree: one symbol for every namespace, class, trait, interface, function, arrow function, method, constant, property and parameter, in their order and nested as they are in the tree, each with its name, kind, place, namespace, visibility, types and parents, and every class with its constant class. Nothing else is added, and the symbols of the other files stay as they are.", "quantifier": "all trees of any depth, all earlier states of the server", "why_tests_cant": "Tests compare the symbols of a few files; the claim is about every tree and every kind of nesting.", "anchors": ["src/environment/visitor/workspace_symbol.rs: WorkspaceSymbolVisitor", "src/environment/traverser.rs: traverse", "src/backend/mod.rs: collect_symbols"]}
{"id": "C67", "title": "A well-formed program is read without errors and as it is written", "statement": "Every file that is a program of the language is read without a syntax error, and the tree is the one the grammar of the language gives it: every statement, declaration and expression with its parts in their places, and nothing else. A file that is not a program has an error.", "quantifier": "all programs: all statements, declarations and expressions in any nesting and of any length, with line breaks and line comments anywhere", "why_tests_cant": "Tests parse a few files; the claim is about every combination of the constructs of the language.", "anchors": ["src/parser/mod.rs: ast, statement", "src/parser/ast/"]}
{"id": "C68", "title": "A reference is a place where the symbol is named", "statement": "Every place that is recorded as a reference to a symbol is a place of this file where the symbol is written: the name of its declaration, a variable or a member of the name, or a name that stands for the full name of the symbol by the imports and the namespace. Replacing all references by a new name therefore renames the symbol and nothing else.", "quantifier": "all trees of all files, all states of the workspace, all symbols and all recorded places", "why_tests_cant": "Tests look at the references of a few files; the claim excludes a wrong place for every combination of scopes, imports, inherited members, aliases and comments in any number of files.", "anchors": ["src/environment/visitor/name_resolver.rs: reference, resolve_type_ref, visit, before, resolve_member_type", "src/backend/mod.rs: collect_references, rename"]}
{"id": "C69", "title": "Every name of a class is linked or reported", "statement": "Every name of a class in a file (parents, interfaces, traits, types, constructors, constants, instanceof, catch, comments) is recorded as a reference to the symbol it stands for by the imports and the namespace, or reported as not found at its place. Renaming a class therefore leaves no mention of it behind.", "quantifier": "all trees of all files, all states of the workspace, all names of classes at any depth", "why_tests_cant": "Tests look at a few mentions; the claim excludes a forgotten mention at any depth of any expression or declaration and after any earlier look ups.", "anchors": ["src/environment/visitor/name_resolver.rs: visit, resolve_member_type, resolve_type_ref", "src/environment/symbol.rs: get_parent_nodes", "src/backend/mod.rs: collect_references"]}
{"id": "C70", "title": "A missing semicolon is reported where it is missing, and nothing else is lost", "statement": "In a program in which some statements lack their semicolon, the parser reports exactly one error for each of them, in the order of the text and at the token that stands in its place, every other statement, declaration and member is read as it is written, and the diagnostics of the server are these errors.", "quantifier": "all programs in which the semicolon of any number of statements at any depth is missing, and any tokens up to the point where the parser resumes", "why_tests_cant": "Tests parse a few broken files; the claim is about every number and combination of missing semicolons in every surrounding of statements, loops, functions and classes.", "anchors": ["src/parser/mod.rs: consume_or_ff_after, consume_end_of_statement, error_fast_forward, statement", "src/parser/ast/", "src/backend/mod.rs: From<&ParserError> for Diagnostic"]}
{"id": "C71", "title": "The formatter by spans prints every token once and in order", "statement": "For a program and its tokens the second formatter prints every token of the stream, comments included, exactly once and in its order, adds nothing but spaces and line breaks, prints no code behind a line comment on the same line, and does not crash.", "quantifier": "all streams of tokens with comments and line breaks at any place, and all trees that lie in them, of any size and depth", "why_tests_cant": "The two tests of this formatter print one text each; the claim is about every position of comments between and within the tokens of every nesting of operators, statements and loops.", "anchors": ["src/formatter/v2.rs: ast_to_spans, node_to_spans, Span, Chunk", "src/formatter/expressions.rs: binary_to_spans, expression_stmt_to_spans", "src/formatter/loops.rs: while_to_spans", "src/formatter/classes/mod.rs: class_stmt_to_spans"]}
{"id": "C72", "title": "The server does what it announces, and asks the client for what it can answer", "statement": "Every method that the server announces in its answer to initialize is implemented and every method that it implements is announced; the client is told to ask for a completion on every character that makes a difference to the answer, and on every character that a name can consist of.", "quantifier": "all workspaces at the start, all methods of the protocol, all characters, all states, positions and files of a request", "why_tests_cant": "No test looks at the answer to initialize, and whether an answer depends on the character typed is a question about all states of the server and all positions.", "anchors": ["src/backend/mod.rs: initialize, impl LanguageServer for Backend", "src/backend/completion.rs: get_trigger, completion", "src/suggester/mod.rs: get_suggestions_at"]}
{"id": "C73", "title": "From every name of a class the client gets to the class, or sees an error", "statement": "When the references of a file have been collected, then at every position of every name of a class in it, go-to-definition answers with the name of a symbol recorded at this position, in the file that declares it, or there is an error at the range of the name among the diagnostics of this file.", "quantifier": "all trees of all files, all states of the server that messages lead to, all names of classes at any depth, all positions in them, all orders of hash maps", "why_tests_cant": "The claim goes through all parts of the server, from the walk over the tree over the cache and the tables of symbols to the answer; a test looks at single names, and the exceptions come from earlier look ups and from other files.", "anchors": ["src/environment/visitor/name_resolver.rs: visit, resolve_type_ref", "src/backend/mod.rs: collect_references", "src/backend/goto_definition.rs: goto_definition"]}
{"id": "C74", "title": "The name of a symbol in the outline is inside of the symbol", "statement": "The protocol demands of every DocumentSymbol that its selectionRange lies in its range. For every text, every symbol in the answer to textDocument/documentSymbol, at any depth, has its selection range inside of its range.", "quantifier": "all texts and their trees, all declarations at any depth, all states of the server that messages lead to", "why_tests_cant": "Ranges come from the first and last tokens of parts of nodes of about 70 kinds, with comments and modifiers in front; a test looks at single declarations.", "anchors": ["src/environment/visitor/workspace_symbol.rs: visit", "src/node.rs: range", "src/environment/symbol.rs: to_doc_sym", "src/backend/document_symbol.rs: document_symbol"]}
{"id": "C75", "title": "What is said about the type of a variable is what its uses lead to", "statement": "An assignment, the item of a foreach, a @var comment, the declared type of an argument and the types of a catch block say of which class a variable is. This is what is known of the variable afterwards, each use of the variable leads to the class said last, the place is recorded as a use of the variable, and neither another variable of this or an outer scope nor another symbol is altered.", "quantifier": "all variables, all values, all comments and arguments, all states of the resolver", "why_tests_cant": "Tests look at a few assignments; the claim is about every state, with any number of scopes and any that is known before, and says of all other variables and symbols that they stay.", "anchors": ["src/environment/visitor/name_resolver.rs: visit (Binary, ForEachStatement, CatchBlock, FunctionArgument, DocCommentVar), resolve_member_type"]}
{"id": "C76", "title": "Every variable is recorded as a use of its symbol", "statement": "When the names of a file are resolved, every place where a variable stands is recorded as a use of the symbol that its name stands for at this place, so that references and rename find it; for a variable in a member access or on a side of an assignment this holds unless nothing is known of its name there.", "quantifier": "all trees, all files, all states, any depth of scopes and expressions", "why_tests_cant": "Tests look at the references of a few variables; the claim is about every variable at every depth of every tree and every state in which a file is resolved.", "anchors": ["src/environment/visitor/name_resolver.rs: visit, resolve_member_type, declare_local_if_new, reference_local", "src/backend.rs: collect_references"]}
{"id": "C77", "title": "A variable of a function is one symbol", "statement": "When the names of a file are resolved, any two places of a variable in the body of one function, or in the statements of a file outside of functions, are recorded as uses of the same symbol, and this is the symbol of the parameter if there is one of that name, so that going to the definition and renaming have the same result at all places.", "quantifier": "all trees, all names, all files, all states, any number of statements at any depth", "why_tests_cant": "Tests rename a few variables; the claim compares any two places of every variable in bodies of any size, over all the nodes in between, each of which could give the name another symbol.", "anchors": ["src/environment/visitor/name_resolver.rs: visit, declare_local_if_new, declare_or_overwrite_local, push_scope, pop_scope", "src/backend.rs: collect_references"]}
