# Formal model of michaeljones/elm-parser in Lean 4

## What is modelled

`/repo` is a recursive-descent parser for Elm 0.18/0.19 source, written with the
macros of `nom` 4.0.0 over `CompleteStr`, plus two small binaries.

| Lean file (`lean/Verif/Model/`) | Rust source |
|---|---|
| `Nom.lean` | the nom 4.0.0 / regex combinators the crate uses (external) |
| `Ast.lean` | `src/ast/{binop,type_/core,expression/core,statement/core}.rs` |
| `Helpers.lean` | `src/ast/helpers.rs` |
| `Types.lean` | `src/ast/type_/mod.rs` |
| `Literals.lean` | `src/ast/expression/{variable,access,access_function,string,float,integer,character}.rs` |
| `Exprs.lean` | `src/ast/expression/{mod,function}.rs` |
| `Statements.lean` | `src/ast/statement/*.rs`, `src/ast/mod.rs` |
| `Binaries.lean` | `src/check.rs`, `src/dump.rs` (decision logic; also Rust's `Path::extension` on Unix) |
| `Walk.lean` | `WalkDir` of walkdir 2.1.4 as used by `src/dump.rs`, over a tree of files (external) |
| `Utf8.lean` | what `read_to_string`, `env::args` and `Path::to_str` do with bytes, and the binaries on bytes (external) |
| `Debug.lean` | the `#[derive(Debug)]` instances of `src/ast/*/core.rs` and `src/ast/binop.rs` under `{:#?}`, and the `println!` calls of the binaries |
| `Regex.lean` | `re_matches!` with the regular expressions as written in the source, and the eight parsers that use it once more |
| `Trace.lean` | `src/ast/type_/mod.rs`, `src/ast/expression/{character,mod,function}.rs`, the way from there to `file`, and the binaries once more, with a record of the calls of `expression` and of `type_` and of the lines printed by `character.rs:18` |

All 75 `named!`/`named_args!` parsers are modelled, one definition each, in the
same order of alternatives.

Representation:

* `&str`/`String` is `List Char` (Unicode scalar values, same as Rust `char`).
* `IResult` is `Res`: `ok value rest`, `err`, plus `panic` (Rust index panic) and
  `div` (recursion or loop budget exhausted).  C01 proves the last two never occur.
* Recursion: the grammar recurses only through `expression` (expressions) and
  `type_`/`type_annotation` (types).  Each model function takes the recursive
  parser as a parameter; `exprN`/`tyN` tie the knot with a nesting budget, the
  public parsers use budget `length + 1`.  `Proofs/Total.lean` proves the budget is
  never exhausted and that the public parsers satisfy the recursive equations of
  the Rust source (`expression_unfold`, `type_unfold`, `typeAnnotation_unfold`).
* Loops (`many0!`, `many1!`, `separated_list!`, ...) run with budget `length + 1`
  in the same way and keep nom's "no progress" exits.
* `u32` indentations are `Nat`; the only conversion, `s.len() as u32`, is `% 2^32`.
* `i64` parsing is exact including overflow; `u8::from_str_radix` includes the
  leading `+` Rust accepts.

## Trusted base

* Lean's kernel and the axioms `propext`, `Classical.choice`, `Quot.sound`
  (`Verif/Axioms.lean` checks this for every theorem of the development and fails
  the build otherwise).
* The reading of `/repo` into `Model/`: no code is run.  The unit tests of the
  crate are restated as kernel-checked `example`s in `Verif/Tests.lean`; they are tests of the
  reading, not proofs.
* `Nom.lean`: behaviour of nom 4.0.0 macros and of the regexes on `CompleteStr`.
  Their sources are not available here.  The points that matter:
  `CompleteStr` never gives `Incomplete`; `alt!`/`opt!`/`many*!`/`separated_*!`
  recover from `Err::Error`; `separated_list!` gives back the input before the
  separator when the element fails, and stops when separator or element consume
  nothing; `re_matches!` with a `^` regex returns one match (whole match, not
  group); `take!(2)` counts characters; regex alternation is leftmost-first.
  For the regular expressions only general rules are trusted (`Regex.lean`: syntax, leftmost-first search, `find_iter`);
  that the functions of `Nom.lean` are the expressions of the source is proved (C63).

* `Utf8.lean`: the checks of `core::str::from_utf8`, from memory of its source; that they accept exactly UTF-8 is proved (C67).

* `Debug.lean`: the format of Rust's `{:#?}`.  What differs between versions of Rust (a comma
  after the last field, the escapes for NUL and the other quote, which characters are
  unprintable) is a parameter; theorems hold for all values of it.

* `failure` (`Binaries.lean`): the error of `eof!` is `Err::Error(Context::Code(CompleteStr(rest), ErrorKind::Eof))`
  (feature verbose-errors), `terminated!` passes it on unchanged, and `Debug` of these types is derived.

Not modelled: the value of an error of `statements` (a parameter of the printed text), stack size (the recursion depth is
bounded by C01 and C50 but a deep input can still overflow the OS stack), running time
except C40, C48, C49, C61, C62, C84, C85 and C87, clap's argument parsing, the file system itself (an input of the
binaries' model: any function for reading, any list as a walk, and for C64 any tree of files).
`Walk.lean` takes the directory given on the command line to be a directory or a link that `metadata` and the walk follow alike.

## Plan per property

| id | modelled by | proof |
|---|---|---|
| C01 | all | `Good` closure (no div/panic, no growth) through every combinator, strong induction on length; monotonicity in the budget |
| C02 | all | same closure with strict consumption and suffixes |
| C03, C04, C39 | `statements`, `file` | direct, from the combinator laws |
| C05-C07, C11-C14 | lexers | iff characterisations against grammar-style specs (decompositions of the string) |
| C08, C18-C20 | all | inductive well-formedness predicates, induction on the budget |
| C09, C10, C38 | `gap` | independent description of a gap as a list of pieces; iff |
| C15-C17 | `applicationOrVar`, `binary`, `typeAnnotation` | from the layout completeness theorem, for lists of any length |
| C21 | all | layout relation between trees and texts (`Spec/`), soundness by induction on the budget; then, without the grammar, induction over that relation: the text is the leaves of the tree woven with fixed tokens, white space and line comments (`Props/Tokens.lean`) |
| C22-C25 | all | layout relations (inductive), induction on the derivation, with follow conditions; unambiguity is a corollary |
| C26, C27 | let/case/application | inversion of the loops + C09 |
| C28, C29 | tuple/parens/record update | from layout theorems; these are surprising behaviours of the code, stated as they are |
| C30-C33 | `Binaries.lean` | list induction, decision logic |
| C34 | `infixDeclaration` | arithmetic on digit strings |
| C35 | `functionF` | inversion |
| C36 | `exports` | induction on the list |
| C37 | all | extension lemma for closed constructs |
| C41 | `Debug.lean` | the rendering is a prefix code: induction on the rendered value; the instances are injective |
| C42 | `Trailing.lean` | simulation of the runs on `s` and `s ++ "\n" ++ w` (`Proofs/Trail.lean`): tokens agree, white-space parsers agree or reach the end in both runs, where what follows them fails |
| C43 | `Starts.lean` | from soundness: cases on the layout of the first statement |
| C44 | `Starts.lean` | running `statement` on the head of a definition: the eight declarations fail, the signature fails, name and arguments are read; then `gap_iff` and uniqueness of gaps |
| C45 | `Reindent.lean` | simulation: each parser run on both texts, with related values and corresponding rests (`Proofs/Reindent.lean`) |
| C40 | `Trace.lean`: the expression grammar once more, with a record of events | erasing the events gives `Exprs.lean`; induction on n |
| C46 | `Trace.lean` | erasure; every event comes from a suffix of the text (`Proofs/Printed.lean`); the lines are a prefix code |
| C47 | `failure` in `Binaries.lean`, `Debug.lean` | the loop of statements stops where `white space, statement` fails; soundness for the text before |
| C48 | `Trace.lean` | weights that at least double with each character: a call after a consumed token weighs 1/128 (`Proofs/Bound.lean`); induction on the length |
| C49 | `Trace.lean` | erasure; a tuple type is tried before parentheses; induction on n; the weights of C48 |
| C50 | `Exprs.lean`, `Types.lean` | closure of "no abort below `openers`" and of "tree nests at most `n`" under every combinator; induction on the budget of `exprN`/`tyN` |
| C51 | the trees of `Ast.lean` | induction over the source relations of `Spec/` with a size per syntactic category; soundness for what was read, completeness for the sharp case |
| C52 | `Debug.lean`, `Trace.lean` | a reader of text with a stack of open brackets, defined without reference to trees; induction over the rendered value |
| C53 | all parsers | a simulation as for C45 between two runs of the same parser on texts alike; every character test of the model is false on all characters not mentioned, or the same for all of them |
| C54 | all parsers of types, expressions and statements | from soundness and completeness of the grammar, which for types, and for expressions and declarations without `let` and `case`, are exact converses of each other (`Proofs/Flat.lean`) |
| C55 | the binaries, Debug output, the whole grammar | a scanner of literals, numbers and words over plain text; induction over rendered values; permutation with the leaves of C21 |
| C56 | the whole grammar, check | texts related word by word (names and numbers); simulation between the two runs, which may part only within a word; the renamed text and tree as functions |
| C57 | check, dump | case analysis on what reading gives and on the parse; induction on the targets of the walk |
| C58 | the whole grammar, check, dump | texts related piece by piece (`Spec/Spacing.lean`); simulation between the two runs, with equal values and corresponding rests; the place after a signature, where one blank line matters, by cases |
| C59 | the whole grammar | `Props/Munch.lean`: induction on the length of the text; the rest of an expression is the rest of the last part of it, and there the loop over the arguments and the optional operator have stopped (`Proofs/Munch.lean`). `Lines`: the lines of the text read so far |
| C60 | the whole grammar | `Props/Exact.lean`: soundness gives the relation without the extra conditions, completeness needs it with them; without `let` and `case` they are the same (`Proofs/Flat.lean`, induction on the derivation) |
| C61 | `Model/Trace.lean` | `Proofs/Linear.lean`: strong induction on the length; every call is charged to a character, and a parser that read more than it consumed leaves a text on which nothing that may follow can start. `Proofs/LinearFile.lean`: types never call `expression`; functions and files. Lower bounds by induction on the nesting in `Props/Linear.lean`, for valid texts in `Props/ValidCost.lean` |
| C62 | `Model/Trace.lean` | `Proofs/TypeLinear.lean`: the counting of C61 with calls of `type_`; an extended record whose fields have been read is no record, and after an argument or arrow that failed nothing can follow. `Proofs/TypeLinearFile.lean`: expressions without `let` contain no types; declarations and files |
| C63 | `Model/Regex.lean`: the texts of the patterns, the search of the crate `regex`, `re_matches!` | `Proofs/Regex.lean`: the search finds exactly the matches (induction on the expression); an expression that starts with `^` matches once; the preferred match of a loop over a class, and of the loop for strings |
| C64 | `Model/Walk.lean`: the walk over a tree of files | the walk of an error-free tree yields the leaves of the tree (mutual induction over nodes and listings); paths are slash-separated names; C33 and C57 for the rest |
| C65 | `Model/Exprs.lean`, `Model/Types.lean` | least fixed point: what the budgeted recursion answers, every solution of the equations answers; as it always answers, there is no other solution |
| C66 | every `alt!` of the source | `Proofs/Choice.lean`: two alternatives that both answer on a text must agree or keep their order. Most pairs answer only on different first characters; the others by comparing what they read (`Proofs/TermChoice.lean`, `Proofs/StmtChoice.lean`); for each pair whose order matters, a text |
| C67 | `Model/Utf8.lean`: `from_utf8`, `read_to_string`, `env::args` | case analysis on the first byte, arithmetic on the bits; induction on the text |
| C68 | the whole grammar, through C21 | a scanner (`Spec/Scan.lean`) that shares nothing with the parser; rule induction over the layouts of types, expressions and statements: from every position where a layout may start, the scanner gets to the end of a token with the same open brackets (`Proofs/Scan*.lean`) |
| C69 | the same | the scanner also fails on forbidden neighbours; outside literals and comments its position says what the last character read was (`Proofs/ScanPlain.lean` for texts without them, `Proofs/ScanCode.lean` for all texts) |
| C70 | the same, with the words that frame expressions | the same scanner with a flag, so one induction serves both; type variables of the tree (`Spec/TypeVars.lean`) must be none of the words, because the parser does not check them; the marks of a text (`Spec/Blocks.lean`) are read with the stack of the scanner; for files with literals and comments the scanner with words and the one without run in step, the position not depending on what is open (`Proofs/BlocksCode.lean`) |
| C71 | the whole grammar, through C21 and C24 | parts of a tree and rows of pieces (`Spec/Spans.lean`); rule induction over the layouts keeps for every part a layout of its own (`Proofs/Spans.lean`); completeness with nothing after the piece reads it back, strict and loose layouts being the same without `let` and `case` |
| C72 | expressions, terms, functions, types | on one line, a simulation between the runs at two indentations (`Proofs/OneLine.lean`); for smaller indentations the layout relation is monotone (`Proofs/Lower.lean`), then soundness and completeness |
| C73 | expressions, types, declarations | contexts with one hole (`Spec/Replace.lean`), independent of the model; induction over the layout relation (`Proofs/Replace.lean`, `Proofs/ReplaceType.lean`), then soundness and completeness |
| C74 | files | the counts of C68 and C70 differ before and after the edit; a word is a piece of the list of marks (`marks_word`) |
| C75 | expressions, types | simulation of two runs on `u ++ x :: r` and `u ++ x :: r'` with `u` shut and `x` a closing bracket (`Proofs/Shield.lean`); brackets are units whose own closing bracket is the boundary inside |
| C76 | expressions, functions, types | simulation of two runs on `u ++ b` and `u ++ b'` with `u` shut and `b`, `b'` empty or beginning with a line end behind which the lines are indented by fewer than `n` columns (`Proofs/Offside.lean`); inside brackets the simulation of C75; a gap is either refused at the edge or ends inside `u` with an indentation of at least `n` |
| C77 | `let`, `case` | soundness splits the text into the pieces of the entries; pieces without `let` and `case` are in the documented grammar at every place (`src_flat`); completeness reads the rearranged text |
| C78 | definitions, ports, files | the header is read step by step, for any text after it, so `function` (or `portDeclaration`) is `expression` on the body; C76 lets the body end at column 0; the statements are then put together as in C24 |
| C79 | files | one step of the statement loop is peeled off at a time: the first declaration is read up to the line end (C54, C78), so the rest is read as a file of its own; after a header only `function` or `portDeclaration` can answer |
| C80 | expressions | `Spec/Parts.lean` gives the texts before a body (`BranchHead`, `EntryHead`) and the usual layout of a part (`Part.Laid`). One part is its head followed by `expression` on the body (`Proofs/Parts.lean`), to which C76 is applied; the list of parts is then run through with each part's follower on a line indented less. Not covered: a body of which only a beginning is read, bindings with a line break or comment between left side and `=`. |
| C81 | statements, types, files | `Spec/TypeHeader.lean` gives the texts before a type or the constructors (`TypeHeader`, `CustomHeader`, `SignatureHeader`). After such a text all alternatives but one are refused (`Proofs/TypeHeader.lean`; `type alias` also as a custom type, whose name would be `alias`), and C76 is applied to the type; the only gap outside brackets in a type wants more indentation, so C76 for types allows lines indented exactly as much. Files by C79. |
| C82 | files | `Spec/Chunks.lean` (`Chunk`) puts together the headers of C78 and C81. Each chunk is read before others as it is read alone (C78, C81; after a custom type no `\|` can follow because a declaration begins there), so the file is run through declaration by declaration (C79), or fails at the first bad one. Not covered: declarations whose signature is wrong (C81), definitions with the body on the line of the `=` that are wrong. |
| C83 | both programs | From C82, C31 and C32: names are collected declaration by declaration, and a declaration that gives an import begins with `import` (C20); the dumper prints the declarations of the file |
| C84 | expressions, functions, types with their events | The simulations of C75 and C76 once more for the parsers with events (`Proofs/TraceOffside.lean`), over a relation between the two texts; parsers without events come from C75 and C76, the bound from C61 |
| C85 | files with their events | Each declaration alone takes the events of its place in the file (`Proofs/TraceFile.lean`): bodies and types by C84, headers by hand, comments, imports and module headers have none; values by C82. The bound is that of C61 per declaration |
| C86 | `failure`, files, the checker | C47 with the listing of the declarations before the bad one; how far a bad declaration is read does not depend on what follows by C82 |
| C87 | files with their events | As for C85; `statement` on a definition has the events of `function`, read or not, and on what begins no declaration none |

See MANIFEST.json for the status of each.

## Specifications

`Spec/` describes the concrete syntax without the parser: `Lex.lean` names, literals, gaps; `Types.lean`, `Exprs.lean`,
`Statements.lean` inductive relations between a tree and the texts that are its layouts.  The relations for
expressions and statements have a flag: `Src False` is what the parser accepts (soundness, C21), `Src True` adds the
side conditions under which ordered choice does not commit to something else (completeness, C23, C24).  The
side conditions are: the branches of a `case` stand to the right of every line that may follow the `case` (so
`case x of A -> 1` on one line is covered within brackets, before a keyword, and where only lines further to the left
follow); there is a line break between two `let` entries and between two branches; the gap after the `->` of a branch
does not start with a comment
glued to the arrow.  `SrcAt st ind j` carries what may follow: `j = 0` only
things that end every expression, such as closing brackets, `j > 0` also lines that start left of column `j`; `Src` is
the general place `j = ind + 1`.  `C22_exactly`, `C23_exactly` and `C24_exactly` say that the trees the parser can return are
exactly the well-formed ones.  `Reindent.lean` defines the text with other indentations (C45).

## Testing the theorems

`seeded/LOG.jsonl` lists edits of the model that imitate realistic bugs, one per line.  They are made in a scratch copy; `Tests.lean`,
`Findings.lean` and the examples are left out of account there, since tests on literals are not proofs.

* Each lemma that no longer builds is assumed in turn and the build is repeated, until everything builds.  `failed` lists the
  lemmas and theorems that did not build, `failed_properties` the theorems of the claimed properties that are among them or rest on
  one of them, `other_properties_depending` the other properties with such theorems.
* `claim_broken` names the properties that the edit is meant to break.  Where it turned out that the edit leaves a property true, the claim
  was corrected and the first one is kept as `claim_first_expected`.
* `witness` is a text on which the edited model and the model differ, found by running both on a fixed list of texts.  It shows that
  the edit is not a change of notation.
* Edits whose model does not compile, for example because a recursion no longer ends, are listed with a note and show nothing.
* Theorems that still held although their claim had become false were tightened: see `tightened`, for example those of C33
  and `C64_failed_listing`.

A proof can also break only because its script no longer fits, so a failed proof by itself does not show that the statement is false.
The `witness` field is there for this.

## Findings (behaviour of the code that a user may not expect)

Concrete instances, evaluated by the kernel, are in `Verif/Findings.lean`; the theorem for the general fact is
given where there is one.

* `( a )` is a one-element tuple although `(a)` is `a`; `( )` is rejected (C28).
* A parenthesised type is a one-element tuple unless it is a function type (C28), and `(a -> b, c)` is rejected.
* A record update must have white space before its closing brace (C29); `examples/BrowserElement.elm` in the
  repository fails for this reason.
* No operator precedence or associativity: everything nests to the right (C16).
* The empty file and a blank file are rejected (C03); adjacent statements are rejected (C39).
* Type variables may be reserved words and cannot contain the digit 0 (C08, C19).
* A blank line or comment between a signature and its definition is rejected, as is a blank at the end of the
  signature's line, and the signature may name another function (C35).
* Constructors in `T(A, B)` must be separated by exactly a comma and one space (C36).
* `'\n'` is rejected, `'''` is the quote character, `'\x+5'` is accepted (C12).
* Block comments do not nest (C14) and are not allowed inside expressions; nor are tabs.
* The reserved operators are matched whole, so `---` and the backslash are operators (C07).
* A binding on the line of its `let` sets the block's indentation to that of the surrounding block, not to its
  column: aligning the next binding with it is an error.
* The priority of an infix declaration is any i64; larger ones make the declaration fail (C34).
* Columns wrap at 2^32 (C10).
* A gap without a newline satisfies every indentation requirement, also "same column" (C09, C38).  Two `let`
  entries or `case` branches still cannot normally stand on one line, because the second is taken as arguments of the
  first; they can if the second starts with a bracket, a backslash or a keyword (C26, C59): `case a of b -> c \x -> e -> f`.
* Two declarations may stand on one line: `f = 1 import A`, and with a tab even `f = 1<tab>g = 2` (C59).
* `elm-parser-check` exits with status 0 when the file does not parse (C32); with an empty argument vector it panics.
* `elm-parser-dump` stops silently, with status 0, at the first error of the directory walk, and panics at the first
  file that cannot be read (C33).
* Backtracking is exponential in the nesting of tuples, also for valid files (C40).
* Parsing prints to standard output: a debugging `println!` writes a line each time a `'\x..` is tried, also in alternatives that
  are given up, so one literal inside n pairs writes 2^n lines before the dump (C46).
* A byte order mark makes a file fail (C43); so do Windows line endings and tab indentation, at the first definition
  with its body on the next line (C44).
* The body of a type alias is read as if the alias were indented by one space, so an argument on its own line may be
  indented by two spaces but not by one (`alias_one_space`); all other parsers only compare indentations (C45).
