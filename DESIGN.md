# Formal model of phpls-rs: design

Source: `/repo` (sawmurai/phpls-rs, Rust), read as text only, never built or run.
Model and proofs: Lean 4.33.0 in `/verif/lean`, with the core library and one Mathlib module (`Mathlib.Logic.Hydra`, in
`Props/Concurrency.lean`, for the well-foundedness of multisets).

## Trusted base

* **Lean's kernel** and its axioms `propext`, `Quot.sound`, `Classical.choice`; which theorem uses which is listed at the end.
  No own axioms, no `sorry` or `admit`, no `native_decide` or `bv_decide`. `decide +kernel` and the tactics of
  `Verif/KernelRfl.lean` leave a computation to the kernel, not to compiled code.
* **The transcription.** Every definition of the model cites the lines of `/repo` it was written from, by hand. Nothing connects
  the Lean text with the Rust text but reading. What a definition simplifies is said in its comment.
* **Code that is not in `/repo`**, modelled from its documentation:
  * `char::is_alphanumeric`, `str::to_lowercase` and the like are parameters (`Unicode` in `Verif/Basic.lean`) of which only
    the behaviour on ASCII is assumed. Theorems hold for all such parameters.
  * `indextree::Arena` is a forest of numbered slots with a free list (`Verif/Arena.lean`). Stamps of slots are unbounded
    (16 bit in the crate). Appending a node below itself panics, as in the crate.
  * `HashMap` is a list of entries with different keys (`Verif/Dict.lean`). Where the code iterates over a map, the order
    is an arbitrary function of the map (`HashOrder`); theorems hold for all of them.
  * `tokio` mutexes, tasks and channels, and the order in which `tower-lsp` polls handlers, are those of
    `Verif/Concurrency.lean`: any handler or task may go on at any time. The order in which a mutex is given to those who wait
    is arbitrary. Calls to the client (`publish_diagnostics`), which some handlers await while they hold the state, are trusted
    to end.
* **Numbers**: `u32` and `usize` are `Nat` without overflow, except where a subtraction can underflow or a value is truncated;
  there the model has an explicit panic.
* **Panics** (`unwrap` on `None`, index out of bounds, `unreachable!`, `unimplemented!`, underflow) are an outcome of the model.
* **Loops and recursion** that may not end carry fuel. `deep`, `diverge` and `outOfFuel` are outcomes, never confused
  with a result; "does not end" is stated as "for every amount of fuel". The stack of the Rust program is unbounded in the
  model, so a stack overflow on deep input is not covered except where a theorem bounds the depth.

## What is modelled, and what is not

Modelled, function by function: `parser/token.rs`, `parser/scanner.rs`, `parser/node.rs`, `parser/mod.rs`, `parser/ast/*.rs`
(with `comments.rs`), `environment/mod.rs`, `environment/fs.rs`, `environment/import.rs`, `environment/scope.rs`,
`environment/symbol.rs`, `environment/traverser.rs`, `environment/visitor/name_resolver.rs`,
`environment/visitor/workspace_symbol.rs`, `backend/mod.rs` with all handlers, `suggester/mod.rs`, `formatter/mod.rs`, and `main.rs` (its `--file` and
`--dir` modes; not the messages of the argument parser).

Not modelled:

* conversion of URIs to paths and back, and the rest of `normalize_path`: a document is named by its normalised path;
* logging (`eprintln!`, `dbg!`), the JSON-RPC layer, `shutdown`;
* reading the workspace folder in parallel, except for the channel between the threads (`Verif/Concurrency.lean`);

Restrictions of theorems that come up often:

* `Serving` (histories of all notifications and requests) asks that no text has a comment of the form `/** @var T $x */`. Such a
  comment inside of a function moves symbols in the arena, and the invariant is false then (`C37`, `C35_serving_partial`).
* In `Verif/Backend.lean` `references` and `rename` are not interrupted between their locks. What interruption does is the
  subject of C45.
* A panic inside of a task that `references` spawns is caught by tokio, and leaves a half changed state behind; the theorems of
  C45 quantify over that state (`broken`).

## Layout

| module | content |
|---|---|
| `Verif/Basic.lean` | Basics: text and the Unicode facts the code relies on |
| `Verif/Token.lean` | Tokens. Model of `src/parser/token.rs` and of the keyword tables of `src/parser/scanner.rs`. |
| `Verif/Scanner.lean` | Scanner. Model of `src/parser/scanner.rs` (lines 1–1045). |
| `Verif/ScannerLemmas.lean` | Helper lemmas about the scanner |
| `Verif/Props/ScannerInv.lean` | Scanner properties that are invariants of the whole scan: C01, C02, C03, C10, C11 (first part) |
| `Verif/Props/ScannerLex.lean` | Scanner properties about single lexemes: C06 (strings), C07 (words), C09 (comments) |
| `Verif/Props/ScannerOps.lean` | Scanner properties about operators: C08, and C11 for operators and words |
| `Verif/Props/ScannerComments.lean` | Scanner properties: comments (C09) and ends of tokens (C11) |
| `Verif/Props/ScannerEnds.lean` | C11: every token lies where it says |
| `Verif/ScannerSim.lean` | Simulation between two scans |
| `Verif/Props/ScannerText.lean` | Scanner properties about whole texts: C04 (carriage returns), C05 (text outside of the tags), C12 (heredoc) |
| `Verif/Props/HereDoc.lean` | C12: every heredoc |
| `Verif/Node.lean` | AST nodes. Model of the data types of `src/parser/node.rs` (lines 1–918). |
| `Verif/DocBlock.lean` | Doc comments. Model of `src/parser/ast/comments.rs` (lines 8–396). |
| `Verif/ParserCore.lean` | Parser: state, outcomes and token helpers. Model of `src/parser/mod.rs` (lines 8–100, 142–157, 473–736). |
| `Verif/Grammar.lean` | Grammar. Model of `src/parser/ast/*.rs` and of the statement level of `src/parser/mod.rs` (lines 102–139, 159–471), function by function. |
| `Verif/GoodAttr.lean` | Simp sets. Only the declaration of simp sets, which Lean wants in a module of its own. |
| `Verif/NodeGood.lean` | Tokens of parse results |
| `Verif/ParserRel.lean` | A logical relation for parser functions. `LR` packages a relation between the states of two runs of the parser together with a predicate on tokens. |
| `Verif/GrammarRel.lean` | The grammar respects every logical relation |
| `Verif/ParserLemmas.lean` | Lemmas about the token helpers of the parser. Running the monad step by step, and each helper of `Verif/ParserCore.lean` in terms of `peekOn`. |
| `Verif/Props/ParserInv.lean` | What the parser does with its tokens (C15, C14) |
| `Verif/Props/DocBlock.lean` | Doc comments: reading them always ends and never fails (C22) |
| `Verif/Props/DocDirectives.lean` | C22: the directives of a doc comment |
| `Verif/Props/ParserTotal.lean` | C14 and C15: the parser never fails and reads from left to right |
| `Verif/Props/ParserTrivia.lean` | C16: line comments and line breaks are transparent to the parser; the outcome does not depend on the fuel |
| `Verif/ParserTerm.lean` | A logic for the termination of the parser |
| `Verif/GrammarTerm.lean` | Termination of every function of the grammar. For every grammar function `f` the lemma `wp_f` says that it does not run out of fuel (except at the loops `V.exc` excuses) and how many tokens it leaves, provided the recursive entry points behave on fewer tokens (`RT`). |
| `Verif/GrammarTerm2.lean` | Termination of every function of the grammar, continued |
| `Verif/GrammarTerm3.lean` | Termination of statements and of the recursion of the parser |
| `Verif/KernelRfl.lean` | Two tactics that leave a computation to the kernel. Running the parser on concrete tokens is slow in the elaborator, and fast in the kernel. |
| `Verif/Props/ParserRecovery.lean` | C20, C54: recovery from errors and the place of missing tokens |
| `Verif/Props/ParserTermination.lean` | C13: when parsing ends |
| `Verif/Props/ParserHang.lean` | C13: the loops that run forever |
| `Verif/Range.lean` | LSP positions and ranges. Model of `src/environment/mod.rs` lines 35–72. |
| `Verif/Relocate.lean` | The symbols of a file do not depend on the place they are stored at |
| `Verif/Props/Range.lean` | C23: the cursor-in-range test is exact |
| `Verif/Visibility.lean` | Visibilities. Model of `src/environment/symbol.rs` lines 45–111. |
| `Verif/Props/Visibility.lean` | C25: the visibility comparison admits exactly the accessible members. The code compares `member.visibility >= minimum` (`src/environment/visitor/name_resolver.rs` 1056, `src/suggester/mod.rs` 309, 355). |
| `Verif/Fs.lean` | Files and folders. Model of `src/environment/fs.rs`. |
| `Verif/Props/Formatter.lean` | Formatting (C48). The claim, that formatting an error-free document keeps all its code and comments, replaces exactly the whole document and never crashes, is true in its second part only. |
| `Verif/Props/Fs.lean` | C50: reading a line range of a file; C51: listing the PHP files of a folder |
| `Verif/ParserRun.lean` | Reading tokens: runs of the parser without errors. `Reads doc f ts rest a` says that the grammar function `f`, given enough fuel, reads exactly the tokens `ts` if `rest` follows them, returns `a`, and neither reports an error nor touches anything but the remaining tokens (and the range of the last token). |
| `Verif/ExprSpec.lean` | Specification of operator expressions (C17, C18, C19) |
| `Verif/ExprLemmas.lean` | Reading operator expressions. The parser reads every valid operator expression (`Verif/ExprSpec.lean`) to its tree. |
| `Verif/ExprReads.lean` | The parser reads every valid operator expression to its tree |
| `Verif/Props/ParserExpr.lean` | C17, C18, C19: operator expressions |
| `Verif/Props/ParserAssoc.lean` | C19, C55: how operators associate and bind, compared with PHP. The specification is the operator table of the PHP manual (language.operators.precedence), restricted to the operators the parser treats as operators. |
| `Verif/Props/ParserModifiers.lean` | C21: the modifiers of class members |
| `Verif/TypeRef.lean` | Names. Model of `impl TypeRef` (`src/parser/node.rs` 154–321). |
| `Verif/Import.lean` | Imports. Model of `src/environment/import.rs` (lines 1–244, without the conversion into a symbol and the alterations of traits). |
| `Verif/Props/Imports.lean` | Imports are expanded correctly (C53) |
| `Verif/Arena.lean` | The symbol arena. Model of the parts of the crate `indextree` (4.3) which `src/environment` and `src/backend` use. |
| `Verif/ArenaLemmas.lean` | Facts about the arena |
| `Verif/NodeInfo.lean` | Children, ranges and names of nodes. Model of `Node::children`, `Node::range`, `Node::name` and `Node::descendants` (`src/parser/node.rs` 929–1863) and of the conversions into `NodeRange` (43–152). |
| `Verif/Suggester.lean` | Completion. Model of `src/suggester/mod.rs` (1–480) and of `src/backend/completion.rs`. |
| `Verif/Symbol.lean` | Symbols. Model of the data types of `src/environment/symbol.rs` (lines 18–231), of `src/environment/scope.rs`, of the methods of `Symbol` that look at names and positions only (382–445), and of `collect_alterations` (`src/environment/import.rs` 87–160). |
| `Verif/Props/SymbolAt.lean` | C24: the symbol under the cursor is the innermost one |
| `Verif/Out.lean` | Results of computations that may panic or not end |
| `Verif/Traverser.lean` | Walking over a syntax tree. Model of `src/environment/traverser.rs` and of the trait `Visitor` (`src/environment/visitor/mod.rs` 41–53). |
| `Verif/Props/TreeRange.lean` | Ranges of syntax trees (C52): crashes. `Node::range` panics if it asks for the first or last element of an empty list. |
| `Verif/Props/Traverser.lean` | C33: the traversal of a syntax tree |
| `Verif/Dict.lean` | Maps. `std::collections::HashMap`, as a list of entries with different keys. |
| `Verif/Resolver.lean` | Resolving names. Model of `NameResolver` (`src/environment/visitor/name_resolver.rs` 12–362) and of the methods of `Symbol` that ask for parents, traits and members (`src/environment/symbol.rs` 121–165, 447–720). |
| `Verif/ResolverLemmas.lean` | What resolving a name changes |
| `Verif/ResolverTarget.lean` | What a name stands for, apart from what is remembered |
| `Verif/ResolverAsked.lean` | What the questions about members ask for on the way. The answers of the resolver depend on what it remembers. |
| `Verif/Props/Resolver.lean` | C26, C27, C28: resolving names |
| `Verif/Props/Members.lean` | Which members a class has: C29. `allSymbols` is the model of `Symbol::get_all_symbols`. |
| `Verif/Props/TraitRules.lean` | The rules for conflicting members of traits: C31. `applyRules` is the model of the part of `Symbol::get_imports` behind the collection of the members of all traits. |
| `Verif/Props/Inheritance.lean` | Do the questions about inheritance end?  C30. `deep` is the outcome of a computation that needs more nested calls than it is allowed; a computation does not end if the outcome is `deep` for each bound. |
| `Verif/NameResolve.lean` | The visitor that resolves names. Model of `NameResolveVisitor` (`src/environment/visitor/name_resolver.rs` 362–1140) and of `get_type_ref`, `get_type_refs` (`src/environment/visitor/workspace_symbol.rs` 533–562). |
| `Verif/NameResolveLemmas.lean` | What the visitor that resolves names may change |
| `Verif/WorkspaceSymbol.lean` | The visitor that collects symbols. Model of `WorkspaceSymbolVisitor` (`src/environment/visitor/workspace_symbol.rs` 14–531) and of the macros `ref_from_doc!` and `deprecated_from_doc!` (`src/environment/visitor/mod.rs` 5–37). |
| `Verif/Backend.lean` | The state of the server and its handlers. Model of `BackendState` and of the functions that read and write it (`src/backend/mod.rs` and the files in `src/backend`). |
| `Verif/ArenaTree.lean` | Nodes of the arena with their parents |
| `Verif/Runs.lean` | Concrete runs |
| `Verif/Props/Scopes.lean` | C32: the scopes of variables. `traverse Node.children (nameVisitor …)` is the walk of `collect_references` over one top level node. |
| `Verif/CollectorLemmas.lean` | What the visitor that collects symbols changes |
| `Verif/BackendLemmas.lean` | What indexing a file changes |
| `Verif/ResolveLemmas.lean` | What resolving the names of a file changes. The variables of the file are taken away and added again; everything else keeps its place, its kind and its name, if no node is moved. |
| `Verif/Props/GlobalTable.lean` | C34, C35, C36: the table of global symbols. `BackendState::global_symbols` maps lower case names to symbols. |
| `Verif/Props/References.lean` | C37, C38: references. `BackendState::symbol_references` holds, for each opened file, where its symbols are mentioned. |
| `Verif/ArenaBelow.lean` | Above and below in the arena |
| `Verif/BackendQueries.lean` | Requests that only read the state. Model of the workspace symbol search (`src/backend/symbol.rs`), of the outline of a document (`src/backend/document_symbol.rs`), of go-to-implementation (`src/backend/goto_implementation.rs`) and of the two command line modes of `src/main.rs`. |
| `Verif/Props/Completion.lean` | C46: completion finds the node at the cursor |
| `Verif/Props/CompletionMembers.lean` | C47: completion offers members that can be used |
| `Verif/Props/CompletionNames.lean` | C58, C59: completion of names, and the imports that it adds |
| `Verif/Props/CompletionKeywords.lean` | C61: where keywords are offered |
| `Verif/Props/Definition.lean` | C42, C44: go-to-definition, hover and highlights |
| `Verif/Props/Documents.lean` | C39, C40, C41: documents and their diagnostics |
| `Verif/Props/Queries.lean` | C43, C49, C56, C57: symbol search, outline, implementations and the command line |
| `Verif/Concurrency.lean` | Handlers that run at the same time. The handlers of `src/backend/mod.rs` are futures that share one state behind a `tokio::sync::Mutex`; `references` and `rename` also spawn tasks that collect their results in a second mutex (lines 221–285). |
| `Verif/Formatter.lean` | Formatting. Model of `src/formatter/mod.rs` (lines 1–1332) and of `src/backend/formatting.rs`. |
| `Verif/FormatterSpec.lean` | Formatting: the specification of what a formatted text shows. `Shows ks out` says that the texts of the tokens `ks` stand in `out` in this order and do not overlap. |
| `Verif/FormatterShows.lean` | Formatting: the formatted text shows the tokens that are to be kept |
| `Verif/FormatterCount.lean` | Formatting: every token of a tree is kept or lost |
| `Verif/Props/Concurrency.lean` | C45: handlers that run at the same time |
| `Verif/NodeCover.lean` | Ranges of nodes and of their children |
| `Verif/CoverRun.lean` | Places of the tokens a parser function takes |
| `Verif/GrammarCover.lean` | Places of the nodes the grammar returns |
| `Verif/GrammarCover2.lean` | Places of the nodes the grammar returns, continued |
| `Verif/GrammarCover3.lean` | Places of the nodes the grammar returns, statements. The statements, and the recursion of the parser. |
| `Verif/GrammarCover4.lean` | Places of the nodes the grammar returns, imports and the recursion |
| `Verif/Props/TreeCover.lean` | Ranges of syntax trees (C52): parents cover their children |
| `Verif/KeepRun.lean` | Which tokens a parser function keeps |
| `Verif/GrammarKeep.lean` | Which tokens the grammar keeps |
| `Verif/GrammarKeep2.lean` | Which tokens the grammar keeps: classes, attributes and statements. The functions of the grammar that lose tokens of other than the lost kinds, the functions that call them, and the knot. |
| `Verif/Props/TreeKeeps.lean` | C60: the tree holds every token of the text |
| `Verif/Props/ConcurrencySearch.lean` | C45, C38: what `references` and `rename` answer while other handlers run |
| `Verif/ResolveLive.lean` | Resolving names leads to symbols that exist |
| `Verif/Props/ReferencesLive.lean` | C37, C35: what resolving the names of a file does to the references |
| `Verif/ResolveNamed.lean` | Resolving names records references to symbols of that name |
| `Verif/Props/ReferencesNamed.lean` | C68: a reference is a place where the symbol is named |
| `Verif/Hover.lean` | The text of a hover. Model of `Symbol::hover_text` (`src/environment/symbol.rs` 783–808) and of the whole answer of `hover` (`src/backend/hover.rs`). |
| `Verif/Props/Hover.lean` | C62: hover shows the declaration |
| `Verif/CompletionItem.lean` | What a completion item shows and inserts. Model of `Symbol::completion_item` (`src/environment/symbol.rs` 281–381), of the items made from keywords (`src/parser/token.rs` 738–746) and of the whole answer of `completion` (`src/backend/completion.rs`). |
| `Verif/Props/CompletionItem.lean` | C63: what a completion item shows and inserts |
| `Verif/Props/ProtocolPositions.lean` | C64: positions are those of the protocol. The language server protocol counts lines by the line ends `\n`, `\r\n` and `\r`, and columns in UTF-16 units. |
| `Verif/Props/MemberAccess.lean` | C65: the links of a member access |
| `Verif/Props/VariableTypes.lean` | C75: what is known about the type of a variable |
| `Verif/Props/VariableCatch.lean` | C75, blocks that catch an exception. `catch (A / B $e) { … }` (`src/environment/visitor/name_resolver.rs` 514–533) tells the types of `$e` by their names; which classes these are is found at each use of the variable (`src/environment/visitor/name_resolver.rs` 894–930). |
| `Verif/Props/VariableUses.lean` | C76: every variable in view is recorded |
| `Verif/Props/VariableOne.lean` | C77: one symbol for each variable of a function |
| `Verif/Props/VariableOneAccess.lean` | C77: places in member accesses and right sides |
| `Verif/Props/VariableOneChange.lean` | C77: behind the message that changes a file |
| `Verif/Props/VariableOneAnswers.lean` | C77: what the client is told |
| `Verif/Props/VariableKnown.lean` | C75: what is known first of a variable stays |
| `Verif/Props/Declarations.lean` | C66: the symbols of a file are its declarations |
| `Verif/SyntaxRun.lean` | Reading whole programs: the calculus |
| `Verif/SyntaxSpec.lean` | Specification of programs (C67). The grammar of the language, as rules that say which tokens are a statement, an expression, a declaration . |
| `Verif/SyntaxExpr.lean` | Reading whole programs: expressions |
| `Verif/SyntaxCall.lean` | Reading whole programs: names, types, calls, lists and functions |
| `Verif/SyntaxPrim.lean` | Reading whole programs: operands |
| `Verif/SyntaxStmt.lean` | Reading whole programs: statements |
| `Verif/SyntaxMore.lean` | Reading whole programs: text outside of the script and trait adaptations |
| `Verif/SyntaxSem.lean` | Every construct of the grammar is read (C67). `Sem doc i ts` says what the parser does with the tokens of an `i`; `Is.sem` shows it for everything the grammar derives. |
| `Verif/Props/Programs.lean` | C67: a well-formed program is read as it is written. The grammar is in `Verif/SyntaxSpec.lean`. |
| `Verif/Props/ProgramsMore.lean` | A second program (C67). The rules for trait adaptations, for a `yield` without a value and for the text outside of the script, met by a concrete text. |
| `Verif/Props/ProgramSymbols.lean` | C66 and C67 together: from the tokens of a well-formed file to its symbols |
| `Verif/CommandLine.lean` | The command line. Model of `main` (`src/main.rs` 18–103). |
| `Verif/Props/CommandLine.lean` | C49: the command line |
| `Verif/Props/ReferencesLooked.lean` | C69: every class name in view is looked up. `C68` says that every recorded reference has a reason. |
| `Verif/FlawSpec.lean` | Programs with missing semicolons: the specification. `Has doc i ts es` extends the grammar of `Verif/SyntaxSpec.lean` (`Is`) by statements whose semicolon is missing. |
| `Verif/FlawRun.lean` | Programs with missing semicolons: the calculus. `RdE doc d f ts rest a es` is `Rd` (`Verif/SyntaxRun.lean`) for runs that report exactly the errors `es`. |
| `Verif/FlawSem.lean` | Programs with missing semicolons: what the parser does with them |
| `Verif/FlawSem2.lean` | Programs with missing semicolons: statements and declarations around the flawed ones |
| `Verif/Props/Flaws.lean` | C70: a missing semicolon. The programs with missing semicolons, their trees and their errors are in `Verif/FlawSpec.lean`. |
| `Verif/Spans.lean` | The formatter by spans |
| `Verif/SpanRuns.lean` | Which tokens the spans hold |
| `Verif/Props/Spans.lean` | C71: what the formatter by spans prints |
| `Verif/Props/SpanPrograms.lean` | C71 for programs. The hypotheses of `C71_kept` speak about the tree and the places of its tokens. |
| `Verif/Announce.lean` | What the server says about itself. The answer of `initialize` and the methods that the server implements, `src/backend/mod.rs`, and the reading of the trigger of a completion, `src/backend/completion.rs`. |
| `Verif/Props/Announce.lean` | C72: the server does what it announces. The methods that the server announces to the client and those that it implements, and the characters on which the client asks for a completion. |
| `Verif/Props/Jump.lean` | C73: from every class name in view there is a way to the class, or it is reported. `C69` follows a name to the tables of the resolver, `C42` goes from the tables of the server to the answer. |
| `Verif/Props/OutlineRanges.lean` | C74: the name of a symbol is inside of the symbol |

## Properties: what was planned

Written before the proofs; C56 to C59 were added later.

* C01 full scanner model over `List Char` with fuel; prove fuel `length + 1` always suffices and each turn shortens the input.
* C02 invariant over scanner steps: (line, col) equals the position function of the consumed prefix, an independent fold over the text.
* C03 invariant over scanner steps: emitted starts sorted and bounded by the current position.
* C04 simulation between a text and its CRLF version; violated inside heredocs (witness), partial theorem for texts without `<<<`.
* C05 induction over HTML text; violated by `<<<` (witness), partial theorem for texts without `<`.
* C06 independent recursive specification of "well-escaped body"; round trip by induction.
* C07 the keyword function factors through lower-casing; maximal munch by induction on the word.
* C08 specification: operator table as data; longest match proved by case analysis over the scanner's branches with arbitrary rest.
* C09 round trip lemmas for comments with arbitrary content; violated by `#` directly before newline / closing tag (witness).
* C10 invariant over scanner steps.
* C11 the piece of text every token was read from, and what its start, print and end have to do with it; violated (empty heredoc marker; keyword aliases; non-ASCII) with witnesses.
* C12 heredoc: general theorem for simple bodies, witnesses for the deviations.
* C13 parser with fuel; witnesses of divergence "for every fuel"; termination theorems for the fragment where it holds.
* C14 by construction of the model of `ast`, for every fuel: result is never `Err`.
* C15, C16 closure properties of the parser monad (monotone in stream and errors; invariant under trivia) proved for every grammar function by induction on fuel.
* C17, C18 Pratt parser on operator expressions with an independent grammar/precedence specification.
* C19 chain theorems for each operator; violation shown against the PHP table.
* C20 induction over the stream.
* C21 modifier loop model; violation witness plus exact characterisation of the modifiers kept.
* C22 DocBlock scanner model with termination; directive theorems; violation witness.
* C23, C25 decision logic, all inputs.
* C24, C46 induction over trees.
* C26-C28 resolver model with independent lookup specification; violations as witnesses.
* C29-C31 symbol tables; termination for acyclic graphs, divergence for cyclic ones; override violation; trait rules.
* C32, C33 traversal with event log; stack discipline.
* C34 string laws. C35-C38 backend state machine on the arena, invariants over all histories; violations as witnesses.
* C39-C41 state machine over notification histories.
* C42-C44, C47 list/tree searches with arbitrary enumeration order.
* C45 interleaving model of lock steps: handlers as atomic sections.
* C48 the formatter node by node, the tokens it keeps and loses, comment loss through C16; C49 `main` with its two modes (`Verif/CommandLine.lean`); what each reports is decided by the names of the files alone.
* C50, C51 small functions over lists/trees.
* C52 ranges and children of nodes.
* C53 `collect_uses` with independent specification.
* C54 position of missing tokens: violation witness at end of file, theorem elsewhere.
* C55 the table of binding powers against the PHP table.
* C56, C57 outline and implementations: functions of the arena.
* C58, C59 completion of names: `suggester/mod.rs` and `backend/completion.rs` as functions of the state.
* C60 a logic that follows one token through the grammar: every rule stores it, leaves it in the input, or is one of the listed exceptions.
* C61 keywords in completion: the choice by the node found (C46) and the nodes around it.
* C62 hover: `hover_text` and the handler over the states of C35 to C38; the disk is an arbitrary function.
* C63 completion items: an independent reader of snippets, and an invariant of the walk that collects symbols (what is below a symbol only gets longer).
* C64 positions: the place of every token in the text (C11) compared with an independent definition of the positions of the protocol.
* C65 member access: an independent relation for what a chain of links means, and a proof by induction over the chain that the loops of `resolve_member_type` follow it and record exactly its names.
* C66 symbols of a file: an independent inductive relation between a tree and its outline of declarations, and a proof by induction over the walk that the arena grows by exactly this outline; the relation is shown to be functional.
* C67 programs: an independent grammar as an inductive relation between tokens and trees, and a proof by induction over its derivations that each construct is read by the parser function in charge, with every lookahead settled by what follows.
* C68 reasons of references: an independent relation between a place of the tree and the name of a symbol, and an invariant of the walk over scopes, the current class, the cache, the recorded references and the data types, which every function of the visitor and of the resolver keeps.
* C69 names that are looked up: an independent relation of the names in view of a tree, a proof by induction over the walk and over the look at expressions that each of them is asked for, a case analysis of what an answer leaves behind, and an invariant that every remembered answer is recorded or reported unless its place is that of a name in the head or in a data type of a symbol.
* C70 missing semicolons: an independent relation between tokens, tree and errors on top of the grammar of C67, and a proof by induction over its derivations with a calculus of runs that report exactly the given errors.
* C71 formatter by spans: a model of the spans and chunks over the stream of tokens, an independent relation of where the nodes of a tree lie in the stream, a proof by induction over it that the spans hold the tokens of the stream in order, and a relation between words and a line that they are printed on; for a small grammar, a proof that the trees of the parser lie in the stream in that way.
* C72 what is announced: a model of the answer to initialize and of the list of methods, the reading of the capabilities by the protocol as specification, a case analysis over the methods; for the triggers, a proof that a completion with any other character is one without.
* C73 from names to definitions: the walk of C69 with the file that each place is recorded in, by an invariant that the walk stays below the symbol of the file while no symbol is moved; then the grouping of the references, the diagnostics and the loop of go-to-definition.
* C74 names inside of symbols: the invariant of C52 on the ranges of the grammar, extended by the tokens that declarations are shown by; then the relation of C66 between a tree and its declarations carries it to the symbols and to the answer.
* C75 types of variables: what is known of a variable is the list of data types of the symbol that the innermost scope gives its name; assignment, loop, catch block, comment and argument are shown to extend or replace this list and to leave all else as it is; a use leads to the first class of the list.
* C76 uses of variables: a relation says which variables of a tree are in view, one for expressions looked up for their type and one for the walk; induction on the walk and on the search for the root of a member access shows that each is recorded, or that its name stands for nothing; then for the references kept for a file.
* C77 one symbol for each variable: the walk over a tree keeps what a name stands for unless a loop, a `catch` or a parameter there gives it anew (induction on the walk); with the record of each place this makes all places of a run of statements uses of one symbol; then for parameters, for the references kept for a file and behind the message that opens it.

## Properties: what is proved

The statements are in `properties.jsonl`. `partial` means that the statement as written does not hold of the code (then a theorem with `violated` or `fails` in its name is a witness in the model, run by the kernel) or that a part of it is not proved; the note says which.

* **C01** (proved) Scanning any text always ends.
  As stated.
  `C01_scan_total`, `C01_progress`, `C01_fuel_irrelevant`, `C01_collectWhile_eq`, `C01_collectUntilEscaped_eq`, `C01_turns_compose`
* **C02** (proved) Document range is the end of the text.
  As stated.
  `C02_document_range`
* **C03** (proved) Token positions follow the text order.
  As stated.
  `C03_positions_sorted`, `C03_positions_in_text`
* **C04** (partial) Carriage returns are irrelevant.
  Proved for every text without "<<<"; the code violates the claim for heredocs with CRLF line endings (witness).
  `C04_carriage_returns_partial`, `C04_crlf_partial`, `C04_violation_heredoc`
* **C05** (partial) Text outside of PHP tags is ignored.
  Proved for markup without "<<<" and not ending in "<"; the code violates the claim in the excluded cases (witnesses).
  `C05_run`, `C05_html_ignored_partial`, `C05_tokens_independent_partial`, `C05_no_tag_no_tokens_partial`, `C05_violation`, `C05_violation_upper_case_tag`
* **C06** (proved) String literals keep their exact content.
  As stated.
  `C06_string_literal`, `C06_unterminated`
* **C07** (partial) Words are scanned by maximal munch and keywords are case-insensitive.
  Words and keywords proved; "yield from" is only joined when "from" is lower case (witness).
  `C07_word`, `C07_keyword_table_functional`, `C07_case_insensitive`, `C07_yield_from`, `C07_violation_yield_FROM`
* **C08** (partial) Operators are scanned by longest match.
  Longest match for every operator of the table; "?-" and ".." are the exceptions (characterised and witnessed).
  `C08_longest_match_partial`, `C08_question_minus`, `C08_double_dot`, `C08_integer`, `C08_violation`
* **C09** (partial) Comments do not swallow code.
  Comments with "#" lose their first character and swallow an immediately following line break (witness).
  `C09_block_comment`, `C09_line_comment`, `C09_line_comment_tag`, `C09_hash_comment_partial`, `C09_violation_hash`
* **C10** (proved) Token offsets index the token list.
  As stated.
  `C10_offset_is_index`
* **C11** (partial) The range of a scanned token never crashes and covers its source text.
  For every scanned text: every token was read from a piece of the text, starts where the piece starts, prints as the piece and ends where it ends, or deviates in one of ten listed ways (aliases, casts, yield from, heredocs, # comments, ?-, a closing tag in a comment, unclosed strings and comments, labels that are not ASCII, numbers that start with a point); no token reaches into the next one except in the listed ways. The end panics exactly for heredoc tokens with an empty marker. Witnesses for the deviations. The full statement is false.
  `C11_tokens_lie`, `C11_tokens_clear`, `C11_spaced_partial`, `C11_end_panics_only_for_empty_heredoc_marker`, `C11_violation_end_panics`, `C11_end_is_behind_text_partial`, `C11_operator_end`, `C11_keyword_end`, `C11_violation_wrong_end`, `C11_violation_overlap`
* **C12** (partial) A heredoc ends at its terminator line.
  Decided for every text without carriage returns behind the opening line: exactly where the code sees the end and what the content is, and that it is an error otherwise. The claim itself holds for bodies in which no line starts, behind blanks, with the first character of the marker. Otherwise the code violates it: the character behind a part of the marker is lost, and if it is a line feed the terminator on the next line is missed; a longer word that begins with the marker ends the heredoc; so does not a terminator at the end of the text (witnesses).
  `C12_heredoc`, `C12_decided`, `C12_heredoc_partial`, `C12_violation`
* **C13** (partial) Parsing any token stream always ends.
  All loops and the recursion end within a linear number of steps, except six loops on token streams that contain the patterns of MayHang; the code does run forever on texts with these patterns (witnesses for every amount of fuel).
  `C13_parsing_ends_partial`, `C13_parse_exists_partial`, `C13_fails_globals`, `C13_fails_ast`, `C13_fails_lexicals`, `C13_fails_alterations`
* **C14** (partial) Syntax errors never make the parser fail.
  Parsing never aborts with an error, and never panics on the tokens of a scanned text unless a heredoc has an empty marker, where it does (witness).
  `C14_never_error`, `C14_never_panics`, `C14_scanned`, `C14_violation_empty_heredoc_marker`
* **C15** (proved) The parser consumes the tokens strictly from left to right.
  As stated.
  `C15_left_to_right`, `C15_tokens_from_source`, `C15_diagnostics_from_source`, `C15_all_functions`
* **C16** (proved) Line comments and line breaks are transparent to the parser.
  For token streams that end with the same token; positions of the other tokens are those of the stream.
  `C16_trivia_transparent`, `triviaOk_of_scan`
* **C17** (partial) Expression parsing loses nothing.
  Every operator expression (literals, variables, names, groups, member/static/element access, calls, prefix, infix and postfix operators, ternaries) is read completely and the tree gives back its tokens in order, except the parentheses of groups and the commas of argument lists, which the tree does not store. Array literals, closures, new, match, heredocs and all other operands are covered by C67_expression. Not covered: interpolated strings with several parts, whose tokens are those of C12.
  `C17_reads_exactly`, `C17_in_order`, `C18_parses_to_the_valid_tree`, `C67_expression`
* **C18** (proved) Operator precedence is respected.
  For operands as in C17. The table is the one of the code; see C19 and C55 for its comparison with PHP.
  `C18_exists`, `C18_unique`, `C18_parses_to_the_valid_tree`
* **C19** (partial) Operators associate as in PHP.
  The code violates the claim for every operator: chains of two or more operators are always nested to the wrong side. Proved exactly how chains of any length nest.
  `C19_chain`, `C19_single_partial`, `C19_fails_for_every_operator`
* **C20** (partial) Error recovery stops at a synchronisation point.
  error_fast_forward and everything that recovers with it stop at the next synchronisation point for every token stream. Operands that take the semicolon themselves, and consume_or_ff_after, skip past one (two witnesses).
  `C20_skip`, `C20_consume`, `C20_end_of_statement`, `C20_statement`, `ffBefore_eq`, `C20_violated_semicolon`, `C20_violated_brace`
* **C21** (partial) Class member modifiers are all kept, in any order.
  The code violates the claim for modifiers in an order other than abstract, final, visibility, static: proved exactly which modifiers of any list are recorded, and that all are recorded if and only if the list is in that order.
  `C21_modifiers_kept`, `C21_all_recorded_iff`, `C21_in_order_partial`, `C21_property`, `C21_fails_static_public`, `C21_fails_public_abstract`
* **C22** (partial) Doc comment directives are independent of each other.
  Reading a doc comment ends and never fails. A comment made of free text and of directives whose types are followed by a name or description on the same line says exactly what the items say, each for itself, with the places of the names. A directive without one swallows the next line; types like int[][], ?int, ...$x and &$x lose the name; carriage return and line feed count as two lines (witnesses).
  `C22_ends`, `C22_directives_partial`, `C22_places_partial`, `C22_param`, `C22_violated`, `C22_violated_return`, `C22_violated_types`, `C22_violated_crlf`
* **C23** (proved) Cursor-in-range test is exact.
  As stated.
  `C23_in_range_exact`, `C23_empty_range`, `C23_nested`, `C23_disjoint`, `C23_range_conversion`
* **C24** (proved) Symbol under cursor is the innermost one.
  For every well-formed arena, every existing start symbol and every position: the search never fails, all symbols on the way down to the answer contain the position, and no child of the answer contains it.
  `C24_innermost`, `C24_contains`
* **C25** (partial) Visibility comparison admits exactly the accessible members.
  The >= test admits exactly the accessible members; the strict order is not asymmetric on "none" and "public" (witness).
  `C25_admits_exactly`, `C25_unspecified_is_public`, `C25_ge_total_preorder`, `C25_gt_asymmetric_partial`, `C25_fails_gt_asymmetric`, `C25_gt_iff_not_le`, `C25_of_token`
* **C26** (partial) Type references are resolved by the PHP name rules.
  For every name spelled with segments, imported or not: the name that PHP prescribes is found whenever it exists. The code also falls back to the first segment as a global name, so some names are resolved to unrelated classes (witness), and imports with a leading backslash are not found (witness); proved exactly what the answer is.
  `C26_found`, `C26_unresolved`, `C26_only_partial`, `C26_warned`, `C26_global_exact`, `C26_fails_fallback`, `C26_fails_backslash`
* **C27** (proved) Name resolution ignores case.
  As stated.
  `C27_case`
* **C28** (partial) Resolving a name is repeatable and registers each reference.
  Answers are the same for every sequence of requests. A name resolved without registration before is not recorded as a reference later (witness); a name resolved for the first time is.
  `C28_repeatable`, `C28_registered_partial`, `C28_fails_registration`
* **C29** (partial) A member defined in the class wins over an inherited one.
  The code violates the claim: inherited members win over those of data types, these over those of traits, these over the declared ones. Proved exactly that, for every hierarchy; of the parents the first in the order of a hash map that has the member wins, of the traits the first one (for classes without insteadof and as).
  `C29_exact`, `C29_inherited`, `C29_parents`, `C29_imported`, `C29_declared_partial`, `C29_fails`
* **C30** (partial) Inheritance queries always end.
  Ends for every acyclic hierarchy, with a bound on the nested calls. For every cyclic one the members are never found; concrete classes for which the code recurses without end.
  `C30_members_partial`, `C30_child_partial`, `C30_cyclic_never`, `C30_fails_circle`, `C30_fails_self`
* **C31** (partial) Trait conflict rules select one member and never crash.
  Proved exactly which member each name means after all rules, that the rules collected from a use statement are those that are written, and that the code crashes exactly if all members of a name are excluded, which it does (witness). An insteadof rule without a class is dropped (C31_dropped).
  `C31_select`, `C31_crash_iff`, `C31_alias_of`, `C31_alias`, `C31_visibility`, `C31_collected`, `C31_dropped`, `C31_fails`
* **C32** (partial) Variable scopes are balanced.
  The stack of scopes is balanced for every tree. Nothing leaks from named functions, methods, arrow functions and classes without variables outside of methods. Anonymous functions, assigned arrow functions and defaults of properties leak their variables (witnesses).
  `C32_balanced`, `C32_balanced_file`, `C32_function_partial`, `C32_class_partial`, `C32_this_partial`, `C32_container`, `C32_violated_closure`, `C32_violated_arrow`, `C32_violated_class`, `C32_violated_this`
* **C33** (proved) Tree traversal visits every reachable node once in source order.
  For every tree and every visitor (any state, may crash), with the calls written down together with the place in the tree.
  `C33_nested`, `C33_nodes`, `C33_descends`, `C33_order`, `C33_same`, `C33_ends`
* **C34** (partial) Names of symbols are independent of their spelling variants.
  Two symbols have the same place in the table iff their full names are equal up to case, i.e. iff namespaces and names are. Functions and constants get no namespace, so those of different namespaces clash (witness).
  `C34_clash`, `C34_parts`, `C34_violated`
* **C35** (proved) Global symbol table never dangles.
  C35_table is the claim, for all histories of indexing operations. C35_serving_partial extends it to all notifications and requests, if no comment of the form @var T $x is in the texts; C35_violated_docVar shows that this condition cannot be dropped.
  `C35_table`, `C35_serving_partial`, `C35_violated_docVar`
* **C36** (partial) Every indexed symbol can be found by its name.
  Holds after the start of the server; kept by indexing if the names at the top of the old file are not used by other files. Fails otherwise (two witnesses, one with a variable that has the name of a function). C36_text: which symbols a file has depends on its text only.
  `C36_workspace`, `C36_index_partial`, `C36_found`, `C36_text`, `C36_violated`, `C36_violated_variable`
* **C37** (partial) References never point to deleted symbols.
  Resolving the names of any file, including @var comments that move symbols, records only references to existing symbols, from every sound state; so do opening and find-references; indexing, closing and changes on the disk keep every recorded reference alive; after a change only references to variables of another opened file can be without symbol, those that went away when the names of that file were resolved again. All histories of an editor with at most one open file and without references requests keep all references alive (C37_single). The full statement is false: find-references leaves references to variables that do not exist any more, and a change of one file leaves those of another open one (witnesses).
  `C37_resolve`, `C37_collect`, `C37_open`, `C37_all`, `C37_change`, `C37_single`, `C37_index`, `C37_close`, `C37_watched`, `C37_violated`, `C37_violated_foreign`
* **C38** (partial) Find references and rename cover all uses.
  The answer has exactly the places where one of the indexed files that contain the name mentions this symbol. Local variables are new symbols in these files, so their references are not found; uses in another case and unsaved text are missed (witnesses).
  `C38_grouped`, `C38_files`, `C38_locations_partial`, `C38_rename_partial`, `C38_violated_variable`, `C38_violated_case`, `C38_violated_unsaved`
* **C39** (partial) The server works on the latest text of a document.
  Holds if documents are opened with the text that is on the disk, notifications have at most one change, and (for the tree) the text can be scanned. Witnesses that each condition is needed.
  `C39_text_partial`, `C39_tree_partial`, `C39_violated_disk`, `C39_violated_crash`, `C39_violated_changes`, `C39_violated_scan`
* **C40** (partial) Diagnostics describe the current state of each file once.
  What is published is the errors of the current text and the findings of this notification. Unscannable texts, several open documents and other documents violate the claim (witnesses).
  `C40_change_partial`, `C40_single_partial`, `C40_open_partial`, `C40_violated_stale`, `C40_violated_duplicates`, `C40_violated_other`
* **C41** (partial) File system changes are picked up completely.
  Every changed file is brought up to date and nothing crashes if none is open and none is deleted. The loop ends at the first open file, crashes at a deleted one, and no file is ever removed.
  `C41_watched_partial`, `C41_alive_partial`, `C41_violated_open`, `C41_violated_crash`, `C41_violated_deleted`
* **C42** (partial) Go to definition is sound and deterministic.
  Every answer is the place of the symbol recorded at the cursor, and there is an answer if there is one. If two references cover the position, the order of the hash map decides (witness); on the name of a declaration nothing is found (witness).
  `C42_sound`, `C42_complete`, `C42_nothing`, `C42_deterministic_partial`, `C42_violated_order`, `C42_violated_declaration`, `C42_hover`
* **C43** (proved) Workspace symbol search returns exactly the matching symbols.
  For every history of notifications and requests without @var comments.
  `C43_exact`, `C43_match`
* **C44** (partial) Highlights are exactly the references in this document.
  The marks are exactly the places of the references to the symbol at the cursor. The declaration is not marked and some places are marked twice (witnesses).
  `C44_exact_partial`, `C44_violated_twice`, `C44_violated_declaration`
* **C45** (partial) Requests leave the shared state usable under every schedule.
  No deadlock and no endless run for all handlers under every schedule; nobody changes the state while another one holds it; what every request alone keeps is kept under every schedule; for all handlers that lock the state once the outcome of every schedule is that of some order without overlap. For references and rename, which lock several times, the answer is given by states since the request arrived, and other requests neither add to nor remove from what is found; that it is the answer in one state is false: C45_violated_rename gives a schedule in which a change between two locks makes rename panic. Trusted: tokio mutexes, tasks and channels behave as in the model; waiting for the client ends.
  `C45_live`, `C45_isolated`, `C45_invariant`, `C45_table_partial`, `C45_serial`, `C45_serial_end`, `C45_requests`, `C45_references`, `C45_rename`, `C45_search_case`, `C45_violated_rename`, `C45_indexing`
* **C46** (partial) Completion finds the node at the cursor.
  For every tree and position the node found contains the position, none of its children does, and the ancestors are the chain of parents from a top level statement, each but the first containing the position; the search ends, and does not crash if all ranges can be computed. In texts parsed without errors and without the exceptions of C52 it is the innermost node of the tree at the position, and one is found if there is one. A case without statements crashes it, and nodes outside the range of their parent are not found (witnesses).
  `C46_text_innermost_partial`, `C46_innermost_partial`, `C46_found_partial`, `C46_parents`, `ends`, `C46_ends_partial`, `C46_violated_crash`, `C46_violated_completion`, `C46_violated_match`
* **C47** (partial) Completion offers only accessible members.
  Exactly what is offered, for every workspace and position; outside of classes only public members. Accessible is decided by name, static properties and constants are not known to be static, and the operator is only known from the last typed character (witnesses).
  `C47_offered_partial`, `C47_outside`, `accessible_exact`, `membersOf_exact`, `C47_violated_private`, `C47_violated_static`, `C47_violated_untyped`, `C47_violated_arrow`, `C47_violated_self`
* **C48** (partial) Formatting does not lose code.
  The edit replaces exactly the whole document and is made only for error-free open documents (for all documents). For every document the new text shows the kept tokens of the tree in order and without overlapping, and every token of the tree is kept or listed as lost. The rest of the statement is false: comments, text outside of the script and code are lost, and simple documents crash the formatter (witnesses and a theorem for all documents that contain one of ten kinds of statements). Missing: that the new text is parsed to the same tree where nothing is lost, and the exact set of crashing documents.
  `C48_whole_document`, `C48_left_alone`, `C48_kept_partial`, `C48_all_kept`, `C48_comments_lost`, `C48_crashes`, `C48_crashes_scan`, `C48_violated_comments`, `C48_violated_html`, `C48_violated_code`, `C48_violated_syntax`, `C48_violated_crash`
* **C49** (partial) Command line check reports the errors of the file.
  The claim is false for the code: it parses the name of the file instead of its content. Exactly what is reported is proved: the report is decided by the scanner on the name, the content does not matter, and for every name without an opening tag the report is success; the same for --dir, with one error for each of the listed names that cannot be scanned, and exactly which names are listed. So the claim fails for every file with an error and a usual name (C49_violated_always).
  `C49_file`, `C49_file_names`, `C49_dir`, `C49_dir_names`, `C49_listed`, `C49_violated_always`, `C49_violated`
* **C50** (partial) Reading a line range of a file.
  Exact lines for every range with start <= end; the code panics exactly for end < start and for the full u32 range.
  `C50_reads_exactly_partial`, `C50_unreadable`, `C50_fails_iff`, `C50_lines_cons`, `C50_lines_last`
* **C51** (proved) Workspace scan finds every PHP file outside of the ignored folders.
  As stated.
  `C51_nothing_else`, `C51_everything`, `C51_once`, `C51_listing_exact`, `C51_failing_entry`, `C51_empty_pattern`
* **C52** (partial) Tree ranges are consistent.
  For every text that is parsed without errors and in which the tokens known to be measured wrongly do not overlap their neighbours, the range of every node ends behind its start, every node covers its children, with the exceptions listed in Gap and Odd (for five of which there are witnesses), and statements are in the order of the text. For every text: the range of a node is undefined exactly because of three kinds of nodes (a case without statements, static without a value, an empty use in a class), which crash always. Missing: texts with syntax errors or overlapping tokens.
  `C52_text_parents_cover`, `C52_text_nodes_ordered`, `C52_text_statements_ordered`, `C52_parents_cover`, `C52_nodes_ordered`, `C52_documented_ordered`, `C52_statements_ordered`, `C52_crashes_only_at_voids`, `C52_voids_crash`, `C52_lookup_ends`, `C52_violated_crash`, `C52_violated_cover`
* **C53** (partial) Imports are expanded correctly.
  Proved for use statements of any length, with groups of any size, from the tokens through the parser to the imports, for names without reserved words. The code violates the claim for the class Generator (empty local name), for a missing or reserved alias (crash) and for groups of functions or constants (not read).
  `C53_expands_partial`, `C53_one_per_name`, `C53_collect_no_crash`, `C53_fails_generator`, `C53_fails_missing_alias`, `C53_fails_reserved_alias`, `C53_fails_function_group`
* **C54** (partial) Missing tokens are reported where they are missing.
  A token missing between two tokens is reported behind the first one, for every token stream. At the end of the file line and column are swapped (for every stream); a missing semicolon is reported at the next token or at the start of the file.
  `C54_gap_partial`, `C54_identifier_partial`, `C54_violated_eof`, `C54_violated_eof_text`, `C54_violated_statement`, `C54_violated_start`
* **C55** (partial) Operators bind as tightly as in PHP.
  Two infix operators of different precedence nest as in PHP except for the string concatenation; a prefix operator and an operator behind its operand nest as in PHP except for an exactly characterised list of pairs, for which the opposite is proved.
  `C55_two_operators`, `C55_prefix_and_infix`, `C55_prefix_and_postfix`, `C55_infix_partial`, `C55_fails_concat`, `C55_prefix_exact`, `C55_fails_prefix`
* **C56** (partial) The outline of a document mirrors its declarations.
  The outline mirrors the tree of symbols of the file. It is answered if the known types of the variables exist, which is not so after their file was indexed again (witness of the crash).
  `C56_mirror`, `C56_answers_partial`, `C56_violated_crash`
* **C57** (partial) Go-to-implementation lists exactly the implementing classes.
  Exactly which classes are listed. Subclasses of implementing classes, and classes with the name of the interface, are missing (witnesses).
  `C57_exact_partial`, `C57_violated_parent`, `C57_violated_name`
* **C58** (partial) Completion of names and variables offers what can stand there.
  Exact for names, imports and traits. Variables are those of the symbol under the cursor, which is not always the function (witness); $this is offered in static methods (witness).
  `C58_imports`, `C58_traits`, `C58_names`, `C58_variables_partial`, `C58_violated_statement`, `C58_violated_static`
* **C59** (partial) Accepting a class adds the import it needs.
  Exactly when an edit is added, and what it adds. The namespace of the file is not known and the place may be before the opening tag or inside a string (witnesses).
  `C59_import_partial`, `C59_violated_namespace`, `C59_violated_first`, `C59_violated_place`
* **C60** (partial) The tree holds every token of the text.
  For every text that is parsed without an error, every token is in the tree, or of one of 30 kinds that some rule reads without storing them (each with a witness), or dropped in one of five situations (failed class members, trait rules without as or insteadof, static variables without a value, attributes of other things than functions and classes), each with a witness. Texts without classes, interfaces, traits, static and attributes lose nothing else than those kinds. The full statement is false because of the five situations; tokens of the 30 kinds are not followed individually.
  `C60_tokens_kept`, `C60_text_kept`, `C60_tokens_kept_plain`, `dropped_start`, `C60_lost_kinds_lost`, `C60_kept_case`, `C60_plain_case`, `C60_violated_static`, `C60_violated_interface`, `C60_violated_new`, `C60_violated_alteration`, `C60_violated_member`
* **C61** (partial) Keywords are offered where they may stand.
  For every tree, position and state: a keyword is offered if and only if there is no node at the cursor, the trigger is not $ and the cursor is on the top level of the file (then those that begin a declaration), or the innermost class or block around the node is a class or the block of a class and the node is none of those for which names are offered (then the visibility keywords). The full statement is false: they are offered in empty methods, for types and behind extends, and not in traits (witnesses).
  `C61_keywords`, `C61_case`, `C61_violated_method`, `C61_violated_types`, `C61_violated_trait`
* **C62** (partial) Hover shows the declaration of what is under the cursor.
  For every history of notifications: what is shown are the lines of the declaration of the innermost symbol at the cursor or else of one that is recorded there, read from the file on the disk in which it is declared. At the top level the whole file is always shown instead; the disk may differ from the editor; an incomplete declaration at the end of a file makes hover crash (witnesses).
  `C62_text`, `C62_shown`, `C62_toplevel`, `C62_violated_toplevel`, `C62_violated_unsaved`, `C62_violated_crash`
* **C63** (partial) A completion item inserts a call with the parameters of the function.
  For every answer: every item is $this, a keyword, or shows an existing symbol with its kind and deprecation; exactly functions and methods have a snippet, and it expands to the name and the names of all symbols directly below, as placeholders 1, 2, ... After a file was indexed these begin with the parameters in their order. Missing: they are not only the parameters. Local variables, nested functions and aliases break the claim (witnesses), and a constant is inserted with a dollar sign.
  `C63_labels`, `C63_items`, `C63_function`, `C63_method`, `C63_rest`, `C63_violated_local`, `C63_violated_order`, `C63_violated_nested`, `C63_violated_alias`, `C63_violated_constant`
* **C64** (partial) Positions are counted as the protocol counts them.
  For every text in which carriage returns stand before line feeds: the position of every token, and its end if it is measured right (C11), is that of the protocol less the number of characters outside of the basic plane before it on the line; without such characters it is exact. Both conditions are needed (witnesses).
  `C64_tokens`, `C64_exact_partial`, `C64_document`, `C64_violated_wide`, `C64_violated_return`
* **C65** (partial) The names of a member access are linked to the members PHP uses.
  For all chains of any length that begin with a variable, an element of a variable, a name, self, static or parent: the class the chain begins with, the member found for each name, the answer, the recorded references (all of them, and no others) and the reported errors are those of an independent relation; ::class is not looked up. Arguments of calls, subscripts and an assignment at the beginning are dealt with first, in a stated order, and the rest holds for the state after them. Visibility is judged once for the whole chain, which differs from PHP: A::p() inside of A is refused, a private member of another class is accepted behind $this (witnesses).
  `C65_links`, `C65_chain`, `C65_violated_name`, `C65_violated_later`, `C65_violated_parent`
* **C66** (proved) The symbols of a file are its declarations.
  For all trees and all states: the arena after collect_symbols is the arena before, without the old version of the file, and with exactly the outline that an independent functional relation assigns to the tree. Where this outline differs from PHP is shown by witnesses: parameters of anonymous functions and methods of anonymous classes belong to the symbol around them, static properties and deprecated functions are not marked. Imports, trait rules and parameter lists of the symbols are not part of the outline (C53, C31, C63).
  `C66_file`, `C66_served`, `C66_unique`, `C66_violated_closure`, `C66_violated_anonymous`, `C66_violated_marks`
* **C67** (partial) A well-formed program is read without errors and as it is written.
  For every program of a grammar that covers nearly all statements, declarations, members and expressions, with text outside of the script and trait adaptations: no error is reported and the tree is the one of the grammar, which is therefore unambiguous; line breaks and line comments may stand anywhere. Missing: a closing tag instead of a semicolon behind an expression, echo tags elsewhere than between two other tags, interpolated heredocs, yield without a value inside of other constructs, comments in front of other statements. The full claim is false: some programs are rejected (also with a closing tag instead of a semicolon behind most statements), a wrong text is accepted, semicolons and comments are misplaced (witnesses).
  `C67_program`, `C67_fuel`, `C67_unambiguous`, `C67_expression`, `C67_text`, `C67_server`, `C67_violated_rejected`, `C67_violated_accepted`, `C67_violated_semicolon`, `C67_violated_comment`, `C67_symbols`, `C67_violated_tag`
* **C68** (partial) A reference is a place where the symbol is named.
  For all trees and all states that satisfy the invariant of the server: every recorded place has a reason in an independent relation (a variable or declaration of the name, the current class, a @param comment, a member of the name or of a name given by a trait rule, a name that stands for the full name, a use declaration). The full claim is false: use declarations, aliases and the variable of the current object are recorded as places of the name, and the place of a return type in another file is taken as a place of this file, so that a rename damages it (witnesses).
  `C68_resolve`, `C68_collect`, `C68_violated_written`, `C68_violated_foreign`
* **C69** (partial) Every name of a class is linked or reported.
  Proved for all trees and states: every name in view (parents and interfaces, types of properties, return types in code and comments, @var types, classes of new, instanceof, static and member accesses, everything in right sides, arguments, array elements and subscripts that is looked through) is looked up, or a class around it is not found; and each name that is looked up is recorded as a reference to the symbol the global table has for it, or reported at its place, or built in, or self, static or parent. A name that was asked for before is recorded or reported all the same (an invariant of the cache), unless its place is that of a name in the head or in a data type of a symbol of the workspace, of a variable, of a type of a @var comment or of a caught exception; these places are given by their range only. The full claim is false: names asked for on the way are remembered without being recorded, so that a class can be renamed without its declaration, and default values, catch types, traits, array keys and others are not in view (witnesses).
  `C69_looked`, `C69_linked`, `C69_file`, `C69_violated_remembered`, `C69_violated_expressions`, `C69_violated_declarations`
* **C70** (partial) A missing semicolon is reported where it is missing, and nothing else is lost.
  For all programs in which the semicolons of expressions, return, throw, break, continue, goto, do, namespace, use, echo and print and of the constants, properties and traits of classes are missing, in any number and at any depth of blocks, branches, switches, loops, their alternative forms, try, functions, classes and traits: the tree and the errors are those of the relation Flawed, one error for each, at the token in its place, and one diagnostic for each. The full claim is false: what stands between the place and the next semicolon is lost, also across a closing brace, and behind unset, die, define, declare, static, endif and endswitch nothing is reported, and behind const and global one missing semicolon gives several errors (witnesses). Missing: closures, matches and anonymous classes around the statements.
  `C70_program`, `C70_fuel`, `C70_unambiguous`, `C70_exclusive`, `C70_text`, `C70_server`, `C70_diagnostics`, `C70_violated_lost`, `C70_violated_silent`, `C70_violated_entries`
* **C71** (partial) The formatter by spans prints every token once and in order.
  For all streams in which every token knows its index, which scanned texts satisfy, and all trees of operators, variables, literals, expression statements and while loops that lie in them, with comments and line breaks anywhere but next to the parentheses of a loop, in front of a body without braces and, for line comments, in a condition: every token is printed once, in order, with only spaces and line breaks added; if no line comment stands within a statement, only comments follow a line comment on its line. For the texts of a small grammar (assignments and operators between variables and literals, while loops, line comments between statements) this is proved from the text on: it is parsed and printed. The full claim is false: comments next to the parentheses and the rest of a condition are lost, a comment is printed twice, code is printed behind line comments, every other kind of statement and every block at the top crashes (witnesses, the last two for all programs).
  `C71_kept`, `C71_indexed`, `C71_formatted`, `C71_checked`, `C71_program`, `C71_violated_lost`, `C71_violated_twice`, `C71_violated_commented`, `C71_violated_unknown`, `C71_violated_block`
* **C72** (partial) The server does what it announces, and asks the client for what it can answer.
  For every workspace: what is announced is implemented but for commands and folder changes, which are announced and not implemented; what is implemented is announced but for the formatter. A character on which the answer to a completion depends, in any state and at any place, is a trigger. The full claim is false: a name may consist of characters that are no triggers (z, capital letters, digits, all others that are not ASCII), and exactly which characters are triggers is proved.
  `C72_announced_partial`, `C72_violated_commands`, `C72_implemented`, `C72_triggers`, `C72_distinguished`, `C72_violated_names`
* **C73** (partial) From every name of a class the client gets to the class, or sees an error.
  Proved for every clean state (each state that a history of messages leads to is clean), every file of the workspace and every tree without a @var comment that names a variable: after collect_references every name in view (as in C69) leads at each of its positions, for every order of hash maps, to the name of a symbol recorded there, and the place is recorded for the symbol found; or it is an error among the diagnostics of this file; or it is built in, relative, or at a place that may have been asked for on the way (as in C69, by its range); or a class around it is in one of these cases and not found, or found in another file. C73_open says the same for the message that opens an indexed file, in every state that a history of messages leads to. The full claim is false in the last two cases: what stands in a class that two files declare is recorded for the other file, and a name in the head of a class may be remembered from a look up that recorded nothing (witnesses).
  `C73_jump`, `C73_open`, `C73_violated_twin`, `C73_violated_quiet`
* **C74** (partial) The name of a symbol in the outline is inside of the symbol.
  The claim is false for the code: the range of an arrow function by reference starts at the & behind the keyword it is shown by, and a namespace in the body of a function gets the range of the name of the function. Proved for all texts without syntax errors whose tokens do not overlap (C11), for all other declarations at any depth whose last part has a range of its own and whose comment stands in front: for the declarations of the tree, for the symbols that are collected in any state of the server, and for the answer. Missing: namespaces at the top of a file, texts with errors.
  `C74_declared`, `C74_symbols_partial`, `C74_outline_partial`, `C74_violated_arrow`, `C74_violated_namespace`
* **C75** (partial) What is said about the type of a variable is what its uses lead to.
  For all states whose nodes are all there: behind an assignment, a comment, an argument, in a loop and in a block that catches an exception the data types of the variable are exactly those known before and the new ones (for a loop, an argument and a caught exception only the new ones), and no other variable and no other symbol changes; the place is recorded, except for the item of a loop and a caught exception. A use leads to the first class that is known, not to the last; a type known only by its name is looked up at the use. So the full claim is false for a variable that is assigned again, also for an argument, for an assignment inside of an expression and for an exception of one of several types (witnesses); behind a first assignment it holds (C75_first), also for a caught exception of one type (C75_caught). What is known of a variable stays, in the same order, behind any statements in which no loop and no catch gives the name anew and no function has a parameter of the name, so that all uses lead to the class that was said first (C75_lasting, C75_first_lasting, C75_argument_lasting).
  `C75_assignment`, `C75_use`, `C75_first`, `C75_foreach`, `C75_comment`, `C75_argument`, `C75_catch`, `C75_use_named`, `C75_caught`, `C75_violated_again`, `C75_violated_argument`, `C75_violated_nested`, `C75_violated_caught`, `C75_stays`, `C75_lasting`, `C75_first_lasting`, `C75_argument_lasting`
* **C76** (partial) Every variable is recorded as a use of its symbol.
  Proved for all trees, states and files: every variable in view of the walk, and every variable assigned to, is recorded as a use of the symbol that its name stands for when it is met, or a class around it is looked up and not found; every variable in view in a member access, in the right side of an assignment or in its target is so too, or its name stands for nothing when it is met. C76_open and C76_change say this for the references that the state keeps behind the messages that open and change a file. The full claim is false: a member access of a variable of which nothing is known is not recorded; the parameters of a closure on the right side of an assignment and the variables behind use are not, and their uses are taken for those of the function around; keys of arrays there, names of members, strings and the variable of a catch are not (witnesses).
  `C76_seen`, `C76_accessed`, `C76_file`, `C76_open`, `C76_change`, `C76_violated_undeclared`, `C76_violated_closure`, `C76_violated_hidden`
* **C77** (partial) A variable of a function is one symbol.
  Proved for all trees, names, states and files: the walk keeps the symbol that a name stands for unless a loop, a catch or a parameter gives the name anew; hence any two places of a variable in a run of statements (the body of a function, the statements of a file) without such a node are uses of one symbol, or a class around them is looked up and not found, and of the symbol of the parameter if there is one; the same for the references kept for a file. These are the places where the variable itself stands or is assigned to; those inside member accesses, targets and right sides of assignments are uses of the same symbol if a statement before has a place of the first kind (C77_accessed, C77_then and what follows from them). C77_answers: the definition and the edits of a rename are then the same at all these places, where no other symbol is recorded. The full claim is false: a loop or a catch that gives the name anew makes it two symbols behind, and a variable used in an arrow function before it is assigned around it is two symbols (witnesses).
  `C77_steady`, `C77_one`, `C77_sequence`, `C77_body`, `C77_parameter`, `C77_file`, `C77_top`, `C77_open`, `C77_accessed`, `C77_then`, `C77_then_body`, `C77_then_top`, `C77_change`, `C77_change_top`, `C77_answers`, `C77_answers_open`, `C77_answers_change`, `C77_violated_loop`, `C77_violated_catch`, `C77_violated_arrow`

## Wrong programs

`seeded/LOG.jsonl` lists what was done to test the theorems: in a copy of the model one definition was changed as a bug would
change it (a wrong boundary, a missed case, swapped arguments, a dropped update), the project was rebuilt, and it was noted
which theorems fail. A change that no theorem noticed either was equivalent to the original, or led to a new or sharper
theorem; the log says which.

## Axioms of each theorem

Output of `#print axioms`, for the theorems named in `MANIFEST.json`.

* none (7 theorems): C07_keyword_table_functional, C23_range_conversion, C25_unspecified_is_public, C25_ge_total_preorder, C25_gt_asymmetric_partial, C25_fails_gt_asymmetric, C25_gt_iff_not_le.

* `propext` (155 theorems): C04_violation_heredoc, C05_violation, C05_violation_upper_case_tag, C07_violation_yield_FROM, C08_violation, C09_violation_hash, C11_violation_end_panics, C11_violation_wrong_end, C11_violation_overlap, C12_violation, C13_fails_lexicals, C13_fails_alterations, C14_never_error, C14_violation_empty_heredoc_marker, C17_in_order, C20_skip, C20_statement, ffBefore_eq, C20_violated_semicolon, C20_violated_brace, C22_violated, C22_violated_return, C22_violated_types, C22_violated_crlf, C25_admits_exactly, C26_fails_fallback, C26_fails_backslash, C28_fails_registration, C29_fails, C31_dropped, C31_fails, C32_violated_closure, C32_violated_arrow, C32_violated_class, C32_violated_this, C33_same, C34_violated, C35_violated_docVar, C36_violated, C36_violated_variable, C37_violated, C37_violated_foreign, C38_violated_variable, C38_violated_case, C38_violated_unsaved, C39_violated_disk, C39_violated_crash, C39_violated_changes, C39_violated_scan, C40_violated_stale, C40_violated_duplicates, C40_violated_other, C41_violated_open, C41_violated_crash, C42_violated_order, C42_violated_declaration, C43_match, C44_violated_twice, C44_violated_declaration, C46_violated_crash, C46_violated_completion, C46_violated_match, C47_violated_private, C47_violated_static, C47_violated_untyped, C47_violated_arrow, C47_violated_self, C48_left_alone, C48_crashes, C48_crashes_scan, C48_violated_comments, C48_violated_html, C48_violated_code, C48_violated_syntax, C48_violated_crash, C49_violated, C50_unreadable, C50_lines_cons, C50_lines_last, C52_voids_crash, C52_violated_crash, C52_violated_cover, C53_fails_generator, C53_fails_missing_alias, C53_fails_reserved_alias, C53_fails_function_group, C54_violated_eof_text, C54_violated_statement, C54_violated_start, C55_fails_concat, C56_violated_crash, C57_violated_parent, C57_violated_name, C58_violated_statement, C58_violated_static, C59_violated_namespace, C59_violated_first, C59_violated_place, C61_case, C61_violated_method, C61_violated_types, C61_violated_trait, C62_violated_toplevel, C62_violated_unsaved, C62_violated_crash, C63_violated_local, C63_violated_order, C63_violated_nested, C63_violated_alias, C63_violated_constant, C64_violated_wide, C64_violated_return, C65_violated_name, C65_violated_later, C65_violated_parent, C66_unique, C66_violated_closure, C66_violated_anonymous, C66_violated_marks, C67_violated_rejected, C67_violated_accepted, C67_violated_semicolon, C67_violated_comment, C67_violated_tag, C68_violated_written, C68_violated_foreign, C69_violated_remembered, C69_violated_expressions, C69_violated_declarations, C70_violated_lost, C70_violated_silent, C70_violated_entries, C71_violated_lost, C71_violated_twice, C71_violated_commented, C71_violated_unknown, C71_violated_block, C72_announced_partial, C72_violated_commands, C72_implemented, C73_violated_twin, C73_violated_quiet, C74_violated_arrow, C74_violated_namespace, C75_use_named, C75_violated_again, C75_violated_argument, C75_violated_nested, C75_violated_caught, C76_violated_undeclared, C76_violated_closure, C76_violated_hidden, C77_violated_loop, C77_violated_catch, C77_violated_arrow.

* `Quot.sound`, `propext` (127 theorems): C01_scan_total, C01_progress, C01_collectWhile_eq, C01_collectUntilEscaped_eq, C02_document_range, C06_string_literal, C06_unterminated, C07_word, C07_yield_from, C08_longest_match_partial, C08_question_minus, C08_double_dot, C08_integer, C09_block_comment, C09_line_comment, C09_line_comment_tag, C09_hash_comment_partial, C10_offset_is_index, C11_operator_end, C11_keyword_end, C12_heredoc, C12_heredoc_partial, C14_never_panics, C15_left_to_right, C15_tokens_from_source, C15_diagnostics_from_source, C15_all_functions, C20_consume, C20_end_of_statement, C22_param, C24_innermost, C24_contains, C25_of_token, C26_found, C26_unresolved, C26_only_partial, C26_global_exact, C27_case, C28_repeatable, C28_registered_partial, C29_exact, C29_inherited, C29_parents, C29_imported, C29_declared_partial, C30_child_partial, C30_fails_self, C31_alias_of, C31_alias, C31_visibility, C31_collected, C32_balanced, C32_balanced_file, C32_function_partial, C32_class_partial, C32_this_partial, C32_container, C33_nested, C33_nodes, C33_order, C33_ends, C34_clash, C34_parts, C37_close, C39_text_partial, C39_tree_partial, C40_change_partial, C40_single_partial, C40_open_partial, C41_violated_deleted, C45_search_case, C45_violated_rename, C46_parents, ends, membersOf_exact, C48_whole_document, C49_file, C49_listed, C51_nothing_else, C51_everything, C51_once, C51_listing_exact, C51_failing_entry, C51_empty_pattern, C53_collect_no_crash, C54_gap_partial, C54_identifier_partial, C54_violated_eof, C55_infix_partial, C55_prefix_exact, C55_fails_prefix, C58_imports, C58_traits, C58_names, C58_variables_partial, C59_import_partial, C63_labels, C64_document, C65_links, C65_chain, C66_file, C69_linked, C70_diagnostics, C71_indexed, C75_assignment, C75_use, C75_first, C75_foreach, C75_comment, C75_argument, C75_catch, C75_caught, C75_stays, C75_lasting, C75_first_lasting, C75_argument_lasting, C76_seen, C76_accessed, C77_steady, C77_one, C77_sequence, C77_body, C77_parameter, C77_accessed, C77_then, C77_then_body, C77_answers.

* `Classical.choice`, `Quot.sound`, `propext` (184 theorems): C01_fuel_irrelevant, C01_turns_compose, C03_positions_sorted, C03_positions_in_text, C04_carriage_returns_partial, C04_crlf_partial, C05_run, C05_html_ignored_partial, C05_tokens_independent_partial, C05_no_tag_no_tokens_partial, C07_case_insensitive, C11_tokens_lie, C11_tokens_clear, C11_spaced_partial, C11_end_panics_only_for_empty_heredoc_marker, C11_end_is_behind_text_partial, C12_decided, C13_parsing_ends_partial, C13_parse_exists_partial, C13_fails_globals, C13_fails_ast, C14_scanned, C16_trivia_transparent, triviaOk_of_scan, C17_reads_exactly, C18_parses_to_the_valid_tree, C67_expression, C18_exists, C18_unique, C19_chain, C19_single_partial, C19_fails_for_every_operator, C21_modifiers_kept, C21_all_recorded_iff, C21_in_order_partial, C21_property, C21_fails_static_public, C21_fails_public_abstract, C22_ends, C22_directives_partial, C22_places_partial, C23_in_range_exact, C23_empty_range, C23_nested, C23_disjoint, C26_warned, C30_members_partial, C30_cyclic_never, C30_fails_circle, C31_select, C31_crash_iff, C33_descends, C35_table, C35_serving_partial, C36_workspace, C36_index_partial, C36_found, C36_text, C37_resolve, C37_collect, C37_open, C37_all, C37_change, C37_single, C37_index, C37_watched, C38_grouped, C38_files, C38_locations_partial, C38_rename_partial, C41_watched_partial, C41_alive_partial, C42_sound, C42_complete, C42_nothing, C42_deterministic_partial, C42_hover, C43_exact, C44_exact_partial, C45_live, C45_isolated, C45_invariant, C45_table_partial, C45_serial, C45_serial_end, C45_requests, C45_references, C45_rename, C45_indexing, C46_text_innermost_partial, C46_innermost_partial, C46_found_partial, C46_ends_partial, C47_offered_partial, C47_outside, accessible_exact, C48_kept_partial, C48_all_kept, C48_comments_lost, C49_file_names, C49_dir, C49_dir_names, C49_violated_always, C50_reads_exactly_partial, C50_fails_iff, C52_text_parents_cover, C52_text_nodes_ordered, C52_text_statements_ordered, C52_parents_cover, C52_nodes_ordered, C52_documented_ordered, C52_statements_ordered, C52_crashes_only_at_voids, C52_lookup_ends, C53_expands_partial, C53_one_per_name, C55_two_operators, C55_prefix_and_infix, C55_prefix_and_postfix, C56_mirror, C56_answers_partial, C57_exact_partial, C60_tokens_kept, C60_text_kept, C60_tokens_kept_plain, dropped_start, C60_lost_kinds_lost, C60_kept_case, C60_plain_case, C60_violated_static, C60_violated_interface, C60_violated_new, C60_violated_alteration, C60_violated_member, C61_keywords, C62_text, C62_shown, C62_toplevel, C63_items, C63_function, C63_method, C63_rest, C64_tokens, C64_exact_partial, C66_served, C67_program, C67_fuel, C67_unambiguous, C67_text, C67_server, C67_symbols, C68_resolve, C68_collect, C69_looked, C69_file, C70_program, C70_fuel, C70_unambiguous, C70_exclusive, C70_text, C70_server, C71_kept, C71_formatted, C71_checked, C71_program, C72_triggers, C72_distinguished, C72_violated_names, C73_jump, C73_open, C74_declared, C74_symbols_partial, C74_outline_partial, C76_file, C76_open, C76_change, C77_file, C77_top, C77_open, C77_then_top, C77_change, C77_change_top, C77_answers_open, C77_answers_change.
