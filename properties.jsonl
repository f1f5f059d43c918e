{"id": "C01", "title": "The parser is total", "statement": "Parsing any text as a file returns Ok or Err: it never loops, never recurses forever and never panics on an index; the nesting depth of the recursive descent is at most the length of the text plus one.", "quantifier": "every input string", "why_tests_cant": "an infinite loop or an out-of-range index may need one particular string; there are infinitely many", "anchors": ["src/ast/mod.rs:file", "src/ast/expression/mod.rs:expression", "src/ast/type_/mod.rs:type_annotation", "src/ast/statement/mod.rs:statements"]}
{"id": "C02", "title": "Parsers only consume a prefix", "statement": "Whenever a parser of the public API (file, statements, statement, expression, term, function, type_, type_annotation) succeeds, the remaining input it reports is a suffix of the input it was given, and except for the trivial parsers it is strictly shorter; a successful file parse leaves nothing.", "quantifier": "every input string, every indentation argument", "why_tests_cant": "needs all inputs", "anchors": ["src/ast/mod.rs:file", "src/ast/statement/mod.rs:statement", "src/ast/expression/mod.rs:expression", "src/ast/type_/mod.rs:type_"]}
{"id": "C03", "title": "A successful file is never empty", "statement": "A file that contains no statement (the empty text or only white space) is rejected, and every accepted file yields at least one statement.", "quantifier": "every input string", "why_tests_cant": "ranges over all texts", "anchors": ["src/ast/mod.rs:file", "src/ast/statement/mod.rs:statements"]}
{"id": "C04", "title": "Leading white space is irrelevant", "statement": "Prefixing a file with any amount of spaces, tabs, carriage returns and newlines does not change the outcome: same Ok statements, or still Err.", "quantifier": "every white-space prefix and every text", "why_tests_cant": "unbounded pairs of strings", "anchors": ["src/ast/mod.rs:file"]}
{"id": "C05", "title": "Lower-case names are lexed exactly", "statement": "lo_name accepts precisely an underscore, or a maximal run [a-z][a-zA-Z0-9_]* that is not a reserved word, and returns that text verbatim with the rest untouched.", "quantifier": "every input string", "why_tests_cant": "language equality over all strings", "anchors": ["src/ast/helpers.rs:lo_name", "src/ast/helpers.rs:RESERVED_WORDS"]}
{"id": "C06", "title": "Upper-case and qualified names are lexed exactly", "statement": "up_name returns the maximal [A-Z][a-zA-Z0-9_]* at the start; module_name returns the maximal dot-separated sequence of those and leaves a trailing dot alone, so Module.name splits into a qualifier and an access.", "quantifier": "every input string, every sequence of names", "why_tests_cant": "unbounded lists of names", "anchors": ["src/ast/helpers.rs:up_name", "src/ast/helpers.rs:module_name", "src/ast/expression/access.rs:access"]}
{"id": "C07", "title": "Operators are lexed exactly", "statement": "operator accepts precisely a maximal non-empty run of operator characters that is not one of the reserved operators.", "quantifier": "every input string", "why_tests_cant": "language equality over all strings", "anchors": ["src/ast/helpers.rs:operator", "src/ast/helpers.rs:RESERVED_OPERATORS"]}
{"id": "C08", "title": "Reserved words never become names", "statement": "In no syntax tree returned by the parser is a reserved word used as a value name: variable, record field, accessor, function, port, argument, infix or exported name. The only occurrence of a reserved word is `as` as the operator of a pattern; type variables are not checked.", "quantifier": "every input string and every node of the resulting tree", "why_tests_cant": "all trees of all inputs", "anchors": ["src/ast/helpers.rs:lo_name", "src/ast/mod.rs:file"]}
{"id": "C09", "title": "Layout gaps are measured exactly", "statement": "The layout parser accepts precisely a maximal non-empty run of spaces, line comments and newlines; without a newline it always succeeds; with newlines it succeeds iff the number of spaces before the next token stands in the requested relation (=, >, >=) to the given indentation, and then returns that number.", "quantifier": "every input string, indentation and relation", "why_tests_cant": "all strings and all indentations", "anchors": ["src/ast/helpers.rs:spaces_or_new_lines_and_indent", "src/ast/helpers.rs:IR"]}
{"id": "C10", "title": "Indentation is measured modulo 2^32", "statement": "The measured indentation is the column as a u32. For lines indented by fewer than 2^32 spaces it is the column itself; beyond that it wraps, so equal columns compare equal but the order is lost.", "quantifier": "every number of leading spaces", "why_tests_cant": "needs inputs of four gigabytes", "anchors": ["src/ast/helpers.rs:spaces_or_new_lines_and_indent", "src/ast/helpers.rs:new_line_and_same_indent"]}
{"id": "C11", "title": "Number literals keep their source text", "statement": "integer/float accept precisely an optional sign and digits (with one dot between digits for float) and return that text verbatim, whatever its size; the float alternative wins exactly when a dot and a digit follow.", "quantifier": "every input string", "why_tests_cant": "unbounded digit strings", "anchors": ["src/ast/expression/integer.rs:integer", "src/ast/expression/float.rs:float", "src/ast/expression/mod.rs:term"]}
{"id": "C12", "title": "Character literals denote the right character", "statement": "'c' yields c for every Unicode character c, '\\xHH' yields the character with that code; every accepted character literal is of one of these forms or '\\x+H'.", "quantifier": "every Unicode scalar value and every string", "why_tests_cant": "1.1 million characters and all strings", "anchors": ["src/ast/expression/character.rs:character"]}
{"id": "C13", "title": "String literals keep their source text", "statement": "Every accepted string literal yields exactly the text between its delimiters; single-line literals accept precisely texts made of \\\\, \\\" and characters other than quote and newline; triple-quoted literals accept precisely texts without a quote.", "quantifier": "every text", "why_tests_cant": "all texts", "anchors": ["src/ast/expression/string.rs:string"]}
{"id": "C14", "title": "Comments keep their source text", "statement": "A line comment yields everything up to the end of the line and a block comment everything up to the first -}, verbatim; block comments do not nest and an unterminated one is rejected.", "quantifier": "every text", "why_tests_cant": "all texts", "anchors": ["src/ast/statement/comment.rs:comment"]}
{"id": "C15", "title": "Application associates to the left", "statement": "f a1 ... an, with any layout gap the grammar allows between the terms, parses to the left-nested application for every n.", "quantifier": "every list of arguments, any length", "why_tests_cant": "unbounded length", "anchors": ["src/ast/expression/mod.rs:application_or_var"]}
{"id": "C16", "title": "Operators nest to the right, without precedence", "statement": "a0 op1 a1 op2 ... opn an parses to the right-nested binary tree in source order for every choice of operators: no precedence or associativity is applied.", "quantifier": "every list of operands and operators", "why_tests_cant": "unbounded length, all operators", "anchors": ["src/ast/expression/mod.rs:binary"]}
{"id": "C17", "title": "Function types associate to the right", "statement": "t0 -> t1 -> ... -> tn parses to the right-nested TypeApplication for every n; the parse never panics and never hits its internal error branch.", "quantifier": "every list of types", "why_tests_cant": "unbounded length", "anchors": ["src/ast/type_/mod.rs:type_annotation"]}
{"id": "C18", "title": "Expression trees are well formed", "statement": "Every expression returned by the parser satisfies the shape invariants a consumer relies on: non-empty names, lexically valid identifiers and literals, at least one let entry, case branch, lambda argument and accessor, accessor heads are variables, operator nodes carry one legal operator, let targets are patterns.", "quantifier": "every input, indentation and node", "why_tests_cant": "all trees of all inputs", "anchors": ["src/ast/expression/mod.rs:expression", "src/ast/expression/core.rs:Expression"]}
{"id": "C19", "title": "Type trees are well formed", "statement": "Every type returned by the parser satisfies its shape invariants: constructor names are non-empty sequences of upper-case names, extensible records have a type variable as base and at least one field, field names are value names, a constructor argument never itself has arguments.", "quantifier": "every input, indentation and node", "why_tests_cant": "all trees of all inputs", "anchors": ["src/ast/type_/mod.rs:type_", "src/ast/type_/core.rs:Type"]}
{"id": "C20", "title": "Statement lists are well formed", "statement": "Every statement returned by file satisfies its shape invariants: non-empty module names, export lists that are (..) or non-empty, constructor lists of types that are constructors, infix priorities in 0..i64::MAX, and well-formed types and expressions inside.", "quantifier": "every input and statement", "why_tests_cant": "all trees of all inputs", "anchors": ["src/ast/mod.rs:file", "src/ast/statement/core.rs:Statement"]}
{"id": "C21", "title": "Nothing is invented, dropped or reordered", "statement": "The tokens of the returned tree, read in source order, are exactly the tokens of the accepted text: the text is those tokens in order, separated only by white space, line comments and redundant parentheses.", "quantifier": "every accepted input", "why_tests_cant": "all accepted texts", "anchors": ["src/ast/mod.rs:file", "src/ast/expression/mod.rs:expression", "src/ast/type_/mod.rs:type_annotation"]}
{"id": "C22", "title": "Every well-formed type can be written", "statement": "For every well-formed type tree and every layout the grammar admits, the parser returns that tree and stops at the end of the text; in particular every well-formed type is the result of some input.", "quantifier": "every type tree, layout, indentation and following text", "why_tests_cant": "unbounded trees", "anchors": ["src/ast/type_/mod.rs:type_annotation"]}
{"id": "C23", "title": "Every well-formed expression can be written", "statement": "For every well-formed expression tree and every layout in the documented layout relation, the parser returns exactly that tree and stops at the end of the text.", "quantifier": "every expression tree, layout, indentation and following text", "why_tests_cant": "unbounded trees", "anchors": ["src/ast/expression/mod.rs:expression"]}
{"id": "C24", "title": "Whole files round-trip", "statement": "For every non-empty list of well-formed statements, the file made of their texts separated by newlines parses to exactly that list in the same order.", "quantifier": "every list of statements", "why_tests_cant": "unbounded lists of unbounded trees", "anchors": ["src/ast/mod.rs:file"]}
{"id": "C25", "title": "Formatting does not change the tree", "statement": "Two texts that are layouts of trees (spaces, line breaks with enough indentation, comments, redundant parentheses) parse to the same tree iff they are layouts of the same tree: the layout grammar is unambiguous.", "quantifier": "every pair of layouts", "why_tests_cant": "unbounded pairs of texts", "anchors": ["src/ast/expression/mod.rs:expression", "src/ast/type_/mod.rs:type_annotation"]}
{"id": "C26", "title": "Blocks are aligned", "statement": "In an accepted let or case expression, every entry or branch after the first that starts on a new line starts at exactly the indentation of the block.", "quantifier": "every accepted input", "why_tests_cant": "all accepted texts", "anchors": ["src/ast/expression/mod.rs:let_bindings", "src/ast/expression/mod.rs:cases"]}
{"id": "C27", "title": "Application arguments on a new line are indented", "statement": "An argument on a new line is part of an application only when it is indented more than the current indentation; a line at or left of it ends the application.", "quantifier": "every input and indentation", "why_tests_cant": "all texts", "anchors": ["src/ast/expression/mod.rs:application_or_var"]}
{"id": "C28", "title": "Parentheses with inner spaces make a one-element tuple", "statement": "(e) is e but ( e ) is a tuple with the single component e; for types (t) is always a one-element tuple unless t is a function type.", "quantifier": "every expression and type text", "why_tests_cant": "unbounded", "anchors": ["src/ast/expression/mod.rs:parens", "src/ast/expression/mod.rs:tuple", "src/ast/type_/mod.rs:type_tuple"]}
{"id": "C29", "title": "A record update needs a space before its brace", "statement": "A record update whose closing brace directly follows the last field is rejected, for every field list.", "quantifier": "every record update", "why_tests_cant": "unbounded", "anchors": ["src/ast/expression/mod.rs:record_update"]}
{"id": "C30", "title": "Imported names are exactly the exposed functions", "statement": "elm-parser-check lists, in source order and with repetitions, exactly the function names of the exposing lists of the import statements: no types, no constructors, nothing for (..), nothing from other statements.", "quantifier": "every statement list the parser can return (order and repetitions); every statement list at all (which names occur)", "why_tests_cant": "unbounded lists", "anchors": ["src/check.rs:get_imported_names", "src/check.rs:get_export_set_imports"]}
{"id": "C31", "title": "Name collection is compositional", "statement": "The names collected for a concatenation of two statement lists are the concatenation of the names collected for each, and inserting non-import statements changes nothing.", "quantifier": "every pair of statement lists", "why_tests_cant": "unbounded lists", "anchors": ["src/check.rs:get_imported_names"]}
{"id": "C32", "title": "The checker's outcome", "statement": "elm-parser-check prints the usage and exits with status 1 iff no argument is given; with a readable file it always exits with status 0, printing the names iff the file parses and the error otherwise.", "quantifier": "every argument list and file content", "why_tests_cant": "all argument lists and contents", "anchors": ["src/check.rs:main"]}
{"id": "C33", "title": "The dumper visits exactly the .elm files", "statement": "On a directory elm-parser-dump reports, in walk order, exactly the non-directory entries with extension elm and a UTF-8 path, up to the first walk error, which silently ends the run; with --quiet each is reported parsed or failed according to the parser.", "quantifier": "every directory listing and contents", "why_tests_cant": "all directory contents", "anchors": ["src/dump.rs:dump_directory", "src/dump.rs:dump_file"]}
{"id": "C34", "title": "Infix priorities fit i64", "statement": "An infix declaration with priority digits d is accepted only if the value of d is at most i64::MAX and then carries exactly that value, leading zeros ignored.", "quantifier": "every digit string", "why_tests_cant": "unbounded digit strings", "anchors": ["src/ast/statement/infix.rs:infix_declaration"]}
{"id": "C35", "title": "Signatures attach to the next line", "statement": "A type signature becomes part of a function only when the definition follows on the very next line at the same indentation; the names are not compared; a signature without definition is rejected.", "quantifier": "every signature and definition", "why_tests_cant": "unbounded", "anchors": ["src/ast/expression/function.rs:function"]}
{"id": "C36", "title": "Export lists keep their order", "statement": "exports returns AllExport for (..) and otherwise exactly the listed names in order, for every list length and any spaces and newlines around the commas.", "quantifier": "every list of exports", "why_tests_cant": "unbounded length", "anchors": ["src/ast/statement/export.rs:exports"]}
{"id": "C37", "title": "The answer does not depend on text after a closed construct", "statement": "A type in brackets that parses does so with the same tree whatever text follows its closing bracket, and every layout of an expression in brackets or quotes (other than an operator in parentheses and the empty string, which an access or a third quote can extend) parses to its tree whatever text follows.", "quantifier": "every bracketed construct and every following text", "why_tests_cant": "unbounded pairs of texts", "anchors": ["src/ast/expression/mod.rs:term", "src/ast/type_/mod.rs:type_"]}
{"id": "C38", "title": "Comments in gaps do not change the tree", "statement": "Replacing a layout gap by another gap ending at the same column (for instance one with more line comments or blank lines) gives the same indentation, hence the same parse.", "quantifier": "every pair of gaps with the same final column", "why_tests_cant": "unbounded", "anchors": ["src/ast/helpers.rs:spaces_or_new_lines_and_indent"]}
{"id": "C39", "title": "Statements must be separated", "statement": "Two statements are parsed as two only if white space separates them; directly adjacent statements make the file fail.", "quantifier": "every pair of statements", "why_tests_cant": "unbounded", "anchors": ["src/ast/statement/mod.rs:statements"]}
{"id": "C40", "title": "Backtracking can take exponential time", "statement": "The number of calls of the expression parser on n opening parentheses is at least 2^n; the same holds on the valid expression of n nested pairs ((x,x),x), whatever follows it. So totality does not give a useful time bound, even for valid files.", "quantifier": "every n and every indentation", "why_tests_cant": "asymptotic claim", "anchors": ["src/ast/expression/mod.rs:term", "src/ast/expression/mod.rs:parens", "src/ast/expression/mod.rs:tuple"]}
{"id": "C41", "title": "The printed dump determines the tree", "statement": "Leaving out the lines the parser itself prints (C46), the text elm-parser-dump prints for two files that parse is the same exactly when their trees are the same; the text of a run over a directory determines the sequence of trees; in quiet mode it determines the reported paths, their order, and which parse; the text elm-parser-check prints determines the list of names. This holds whatever is in the string and character literals, names and paths (quotes, newlines, backslashes, unprintable characters), and for old and new versions of Rust's pretty printer.", "quantifier": "all trees, all paths, all versions of the escaping rules and of the trailing comma", "why_tests_cant": "injectivity over all pairs of trees", "anchors": ["src/dump.rs:dump_file", "src/check.rs:main", "src/ast/expression/core.rs:Expression", "src/ast/statement/core.rs:Statement", "src/ast/type_/core.rs:Type"]}
{"id": "C42", "title": "A newline and white space at the end of the text are irrelevant", "statement": "A file, and the same file followed by a newline and any further white space, give the same result: the same tree, or both are rejected. The same holds for statement, function, term, expression, type and type annotation (same tree, same unread text up to the addition), and the two binaries print the same and exit the same way when any of the files they read gets such an ending, except that the unread text shown with an error has that ending as well.", "quantifier": "every text, accepted or not, and every white space after the newline", "why_tests_cant": "relates the runs on all pairs of texts; the layout parser looks ahead over blank lines and comments at every token, so any text end inside any construct is a case", "anchors": ["src/ast/mod.rs:file", "src/ast/statement/mod.rs:statements", "src/ast/helpers.rs:spaces_or_new_lines_and_indent", "src/ast/expression/function.rs:function", "src/check.rs:main", "src/dump.rs:main"]}
{"id": "C43", "title": "How statements and files start", "statement": "Every accepted statement starts with a lower-case letter, `_`, `(`, `--` or `{-`, and every accepted file is white space (space, tab, newline, carriage return) followed by such a text. So a file is rejected when its first character is something else: a byte order mark before an otherwise correct file makes it fail.", "quantifier": "every text that is accepted; every text after a wrong first character", "why_tests_cant": "quantifies over all characters (all of Unicode) and all texts after them", "anchors": ["src/ast/mod.rs:file", "src/ast/statement/mod.rs:statement"]}
{"id": "C44", "title": "Where the body of a definition may start", "statement": "A text starting with the head `f a b =` of a definition (any name but infix, infixl, infixr; any arguments) is accepted as a statement exactly when the `=` is followed by a gap (spaces, or newlines and line comments with the next token indented) and then an expression, and then it is that definition. In particular it is rejected when the body starts with a tab or a carriage return, stands in the first column, or directly follows the `=`; and a file is rejected in which such a definition stands at the start or after other statements. So files with Windows line endings or tab indentation fail at the first definition with its body on the next line.", "quantifier": "every name, every list of arguments, every gap and every text after it", "why_tests_cant": "all definitions and all layouts between `=` and the body", "anchors": ["src/ast/expression/function.rs:function_definition", "src/ast/helpers.rs:spaces_or_new_lines_and_indent", "src/ast/statement/mod.rs:statements", "src/ast/mod.rs:file"]}
{"id": "C45", "title": "Only the order of the indentations matters", "statement": "Replace the indentation n of every line of a text by f(n), where f keeps the order of the indentations that occur, the first column, and (for statements and files) the indentation 1. Then expressions, terms, functions, types, statements and files are accepted or rejected like before, with the same tree and the corresponding unread text; only the contents of string literals and comments that span several lines change, and they change in the same way. So `check` prints the same imported names, or an error whose unread text is the reindented one, `dump --quiet` prints the same verdicts, and a file whose strings and comments each stay on one line has the very same tree.", "quantifier": "every text, every map of indentations that keeps the order of those occurring in the text, every given indentation", "why_tests_cant": "compares two runs of the parser for all texts and all changes of indentation", "anchors": ["src/ast/helpers.rs:spaces_or_new_lines_and_indent", "src/ast/helpers.rs:new_line_and_same_indent", "src/ast/mod.rs:file", "src/check.rs:main", "src/dump.rs:main"]}
{"id": "C46", "title": "The parser prints a line for every attempt at a '\\x literal, and nothing else", "statement": "Parsing itself writes to standard output. Every such line is `Ok(n)` or an `Err(..)` for some '\\x of the text and the two characters after it: Ok exactly if they are two hexadecimal digits (or + and one). A term that starts with '\\x prints exactly one such line, also when the literal is then rejected; a text without '\\x prints nothing, and then the output of both programs is exactly that of C32, C33 and C41. Lines are printed again each time the parser backtracks: one literal inside n nested pairs, which is a valid expression, prints at least 2^n lines. The lines are the only difference to C32 and C33, and the whole output of a dump of a file that parses still determines its tree.", "quantifier": "every text, every file system, every n", "why_tests_cant": "the existing test ignores standard output; the claim is about all texts and all abandoned alternatives", "anchors": ["src/ast/expression/character.rs:character_content", "src/dump.rs:dump_file", "src/check.rs:main", "src/ast/expression/mod.rs:term"]}
{"id": "C47", "title": "What is reported about a file that cannot be parsed", "statement": "A file is rejected in exactly two ways. If no statement can be read at its first non-white character, the reported error is that of the statement parser. Otherwise statements are read one after the other, separated by white space, as far as possible, and the error reported by check and by dump is exactly Error(Code(CompleteStr(r), Eof)), where r is the text from the first non-white character after the last statement read: either r directly follows that statement or no statement can be read at r. The text before r is a valid layout of the statements read, r can be recovered from the output, and the output never equals that for a file that parses.", "quantifier": "every text, every path and file system, every version of the Debug format", "why_tests_cant": "the position reported depends on where the whole parser gives up, for all texts; the existing tests never look at an error", "anchors": ["src/ast/mod.rs:file", "src/ast/statement/mod.rs:statements", "src/check.rs:main", "src/dump.rs:dump_file"]}
{"id": "C48", "title": "Backtracking costs at most exponentially much, and nothing without nesting", "statement": "Parsing an expression of n characters calls expression and type_, and prints lines, at most 128^n times altogether, and a file of n characters at most 110 * 128^n times, so check prints at most 110 * 128^n + 1 lines. With C40, the largest number of calls of expression for a text of length n lies between 2^n and 128^n for every n. A text without opening brackets, backslashes and the letter sequences let, case and if needs at most n + 1 calls.", "quantifier": "every text, accepted or not, every given indentation, every n", "why_tests_cant": "a bound on the work for all inputs, including abandoned alternatives", "anchors": ["src/ast/expression/mod.rs:expression", "src/ast/expression/mod.rs:term", "src/ast/expression/mod.rs:binary", "src/ast/mod.rs:file", "src/check.rs:main"]}
{"id": "C49", "title": "Nested function types take exponential time", "statement": "Behind an opening parenthesis that does not start a tuple type, type_ reads everything twice: the number of calls of type_ at least doubles. So the valid type ((a -> a) -> a)... of n nested function types takes at least 2^n calls of type_, and so does the valid file that consists of one type alias for it, although its length is 16 + 7n; n opening parentheses take at least 2^n calls as well. On any text of length n, type_annotation calls type_ at most 128^n times.", "quantifier": "every text, every given indentation, every n", "why_tests_cant": "a statement about the work done for inputs of every size, including abandoned alternatives", "anchors": ["src/ast/type_/mod.rs:type_", "src/ast/type_/mod.rs:type_tuple", "src/ast/type_/mod.rs:type_annotation", "src/ast/type_/mod.rs:type_parameter", "src/ast/statement/type_declaration.rs:type_alias_declaration"]}
{"id": "C50", "title": "How deep the recursive parsers nest", "statement": "Let the depth of a text be the largest number of calls of expression active at once while expression runs on it. It is at least 1 and at most one more than the number of places in the text where an opening bracket, an operator character or one of let, case, if, as starts; so a text without these nests no call, a list nests two calls however many items it has, and the depth is at most the length plus one, which n opening parentheses attain. The depth is at least the nesting of the tree returned, in which the right operand of every operator counts one: a chain of n operators needs n + 1 nested calls although it has no brackets, and x + x + ... + x needs exactly that many, so a long flat sum uses stack in proportion to its length. For types the depth is at most one more than the number of ( and {; arrows and arguments do not nest; n opening parentheses nest n + 1 calls.", "quantifier": "every text, every given indentation, every n", "why_tests_cant": "a statement about the stack used on inputs of every size, including abandoned alternatives", "anchors": ["src/ast/expression/mod.rs:expression", "src/ast/expression/mod.rs:binary", "src/ast/expression/mod.rs:term", "src/ast/expression/mod.rs:list", "src/ast/expression/mod.rs:let_expression", "src/ast/expression/function.rs:function_definition", "src/ast/type_/mod.rs:type_", "src/ast/type_/mod.rs:type_annotation"]}
{"id": "C51", "title": "The tree is linear in the text", "statement": "Let the size of a tree be the number of values of the tree types in it (expressions, types, functions, signatures, definitions, let entries, export sets, statements, and each record field or case branch) plus the number of characters of the names, literals and comments stored in it. Whenever type_annotation, expression or statement succeeds, the size of the result is at most twice the number of characters read; the statements of an accepted file together have at most twice the size of the file, although reading it can take exponentially many calls (C40, C49). The factor cannot be improved: {x,x,...,x} is one short of it for every number of fields. There is no bound in the other direction, as white space leaves no trace.", "quantifier": "every text accepted, every given indentation, every number of fields", "why_tests_cant": "a relation between the sizes of unboundedly many inputs and outputs", "anchors": ["src/ast/expression/mod.rs:expression", "src/ast/type_/mod.rs:type_annotation", "src/ast/statement/mod.rs:statement", "src/ast/mod.rs:file", "src/ast/expression/function.rs:function"]}
{"id": "C52", "title": "The printed output is well laid out", "statement": "Everything dump prints for a tree, for a file not read to its end, for a path in quiet mode, everything check prints for imported names, and the lines the parser prints itself consist of whole lines in which all brackets are matched by the right bracket and all literals are closed on the line they start on; a line is indented by four spaces for each bracket open at its start, not counting the one it begins by closing. A reader can find this out without knowing anything about trees, whatever brackets, quotes, backslashes and newlines the strings of the tree contain, and the outputs for several files of a directory simply follow each other. It holds for the whole output of dump, if it is quiet or no file fails in its first declaration.", "quantifier": "every tree, path, directory and file contents; every version of Rust's escapes and trailing commas", "why_tests_cant": "trees are unboundedly deep and their strings arbitrary", "anchors": ["src/dump.rs:dump_file", "src/dump.rs:dump_directory", "src/check.rs:main", "src/ast/expression/core.rs:Expression", "src/ast/statement/core.rs:Statement"]}
{"id": "C53", "title": "Characters outside the grammar are all treated alike", "statement": "The grammar mentions the letters and digits of ASCII, white space, underscore, brackets, comma, quotes and the operator characters. If two texts are equal but for characters that are not mentioned (where one has such a character, the other has any such character), then expression, term, function, type_annotation, type_, statement and file either reject both, or read both up to the same place with the same tree but for such characters in string literals, character literals and comments. So no letter outside ASCII, no control character and no byte order mark ever has a meaning of its own; accepted texts stay accepted, rejected ones rejected, and the imported names that check prints stay the same.", "quantifier": "every pair of texts alike, accepted or not, every given indentation", "why_tests_cant": "there are more than a million such characters and they can occur anywhere in an arbitrary text", "anchors": ["src/ast/mod.rs:file", "src/ast/statement/mod.rs:statement", "src/ast/expression/mod.rs:expression", "src/ast/type_/mod.rs:type_annotation", "src/ast/expression/string.rs:single_string", "src/ast/expression/character.rs:character", "src/check.rs:main"]}
{"id": "C54", "title": "Declarations can be taken out of a file and put together again", "statement": "Whenever type_ or type_annotation succeeds, the text it has read is, without the text after it, read as the same type to its end. The same holds for expression and function, if the result contains no let and no case, and for statement, if the result contains no let and no case; the text of a statement alone is then also an accepted file with that one statement. A file of such declarations consists, up to white space, of texts each of which alone is read as its declaration; and any such texts, from whatever files and in whatever order, put on consecutive lines, are an accepted file with exactly these declarations in this order.", "quantifier": "every text, every given indentation, every list of declarations without let and case", "why_tests_cant": "arbitrary texts in arbitrary numbers and orders", "anchors": ["src/ast/mod.rs:file", "src/ast/statement/mod.rs:statement", "src/ast/type_/mod.rs:type_annotation", "src/ast/expression/mod.rs:expression"]}
{"id": "C55", "title": "The printed tree shows everything in the file and nothing else", "statement": "A reader of the output of dump that knows nothing of trees, and only collects the quoted literals (decoding their escapes), the numbers and the words, finds for an accepted file, in the order of the tree (an operator before its operands), exactly the names, operators, literals, numbers and comments that stand in the file between the fixed tokens, white space and line comments: none is lost, repeated, changed or added (AllExport stands for .., and L, R and N for the infix keywords). The same reader finds in the output of check exactly the imported names, in order; in the report of a file not read to its end exactly the unread text; and in the report of quiet mode the path.", "quantifier": "every accepted file, every tree, every path and unread text; every version of the standard library (comma after the last field, escapes of NUL, quotes and unprintable characters)", "why_tests_cant": "arbitrary strings with quotes, backslashes, newlines and unprintable characters in trees of any depth, compared with arbitrary source text", "anchors": ["src/dump.rs:dump_file", "src/dump.rs:dump_directory", "src/check.rs:main", "src/ast/expression/core.rs:Expression", "src/ast/statement/core.rs:Statement"]}
{"id": "C56", "title": "Names and numbers are opaque", "statement": "Replace the names and numbers in a text: lower-case names that could be type variables by such names, other lower-case names by other lower-case names, upper-case names by upper-case names, runs of digits by runs of digits (those that fit into an i64 by such ones, because of the priorities of operators); reserved words, the words effect, infix, infixl and infixr and character literals stay, and words that begin within five characters after any other quote must stay. Then file accepts both texts or neither, and the trees are the same but for the replaced names and numbers (and the words in strings and comments). If the replacement is a function, injective or not, that takes numbers of the same value to numbers of the same value, then the tree of the new text is the tree of the old one with this function applied, and check prints the names with it applied. expression, function, type_, type_annotation and statement also agree on both texts, and go on to corresponding places unless both stop within a word.", "quantifier": "every text, every relation or function between names and numbers that keeps their kind, every given indentation", "why_tests_cant": "arbitrary texts and arbitrary replacements of their names", "anchors": ["src/ast/mod.rs:file", "src/ast/helpers.rs:lo_name", "src/ast/helpers.rs:up_name", "src/ast/statement/mod.rs:statement", "src/check.rs:main", "src/ast/expression/integer.rs:integer", "src/ast/expression/float.rs:float"]}
{"id": "C57", "title": "The two programs agree with each other", "statement": "For every path: if dump prints a tree, then check prints the functions the imports of that tree expose and dump --quiet says that the file was parsed; if dump prints an error, then check prints the same error and dump --quiet says that the file failed; if one of them panics, then all three do, before printing anything. dump on a directory does what running it on each of the files with extension elm in walk order, up to the first panic, would do, with and without --quiet, and --quiet changes neither how it ends nor how many files are reported.", "quantifier": "every file system (what reading each path gives), every path, every directory walk, including ones with errors and unreadable files", "why_tests_cant": "relations between runs of different programs over arbitrary file contents and arbitrary directory trees", "anchors": ["src/check.rs:main", "src/dump.rs:dump_file", "src/dump.rs:dump_directory", "src/dump.rs:main"]}
{"id": "C58", "title": "Spacing, blank lines and the texts of comments do not matter", "statement": "Change the number of spaces between tokens of a line or at the end of a line from one positive number to another (not in the indentation of a line, not after a comma, not in string and character literals), change the number of blank lines in a place from one positive number to another, and change the texts of line comments (unless the dashes could be part of an operator) and block comments (unless they begin {--). Then file accepts both texts or neither, and the trees are the same but for the comments between declarations; if the comments are the same then so are the trees. expression, function, type_, type_annotation give the same value, or fail on both, and stop at corresponding places. check prints the same names and dump --quiet the same messages, and both end the same way. In particular every text without quotes and comments has the same tree as the text with each such run of spaces replaced by one space.", "quantifier": "every pair of texts that differ in this way, every relation between the comments, every given indentation, every file system", "why_tests_cant": "arbitrary texts, with any number of changes at arbitrary places", "anchors": ["src/ast/mod.rs:file", "src/ast/helpers.rs:spaces_or_new_lines_and_indent", "src/ast/statement/mod.rs:statement", "src/ast/statement/comment.rs:comment", "src/check.rs:main", "src/dump.rs:main"]}
{"id": "C59", "title": "Expressions and types are read as far as possible", "statement": "Whenever the parsers of expressions and of functions stop after an expression, what follows on the same line after spaces is not something that can be read as a further argument wherever it stands (a name, a qualified name, a number, a string, a character, an access function, an operator in parentheses), nor an infix operator with such an operand. On a later line the same holds if that line is indented by more than the current indentation and than every line of the text read. Consequences: after a definition no other definition starts on the same line after spaces; after a definition that stands on one line the next one, if only blank lines and comments are between, starts in the first column; every entry of a `let` and every branch of a `case` after the first stands on a line of its own in the column of the block, or starts with a bracket (or, for a branch, with a backslash or one of the words let, case, if). Types: a function type is not followed by white space, an arrow, white space and a further type; a type constructor is not followed by a name on the same line or on a line indented by more than the given indentation; a type declaration is not followed, on the same line, by a bar and a further constructor.", "quantifier": "all texts, all indentations, all expressions, functions, let entries, case branches, types and top-level declarations the parsers read, and everything that may follow them", "why_tests_cant": "The claim is about every possible rest of every accepted text; a parser that stops too early in one construction (after a parenthesised argument, at a deeper indentation, inside the last branch of a nested case) is only seen by a test with exactly that construction followed by exactly that continuation.", "anchors": ["src/ast/expression/mod.rs:expression", "src/ast/expression/mod.rs:application_or_var", "src/ast/expression/mod.rs:binary", "src/ast/expression/mod.rs:let_expression", "src/ast/expression/mod.rs:case_expression", "src/ast/expression/function.rs:function", "src/ast/type_/mod.rs:type_annotation", "src/ast/type_/mod.rs:type_constructor", "src/ast/statement/type_declaration.rs:type_declaration"]}
{"id": "C60", "title": "Outside let and case, the parser accepts exactly the documented grammar", "statement": "The layout relations of the specification describe exactly what is accepted. A text in front of anything that ends a type is read as the type t, and no further, iff it is a layout of t in the relation TySrc. For an expression or a function without let and case, a text in front of anything that ends an expression is read as that tree, and no further, iff it is a layout of it in the relation Src. A text is read to its end as a declaration without let and case iff it is a layout of that declaration, and it is a file with that single declaration iff it is such a layout with white space around it.", "quantifier": "every text, every following text, every indentation, every type, expression, function and declaration (the last three without let and case)", "why_tests_cant": "An equivalence between two infinite sets: a test can show that some layouts are read and some other texts are not, but not that the accepted texts of a tree are exactly its layouts.", "anchors": ["src/ast/type_/mod.rs:type_annotation", "src/ast/expression/mod.rs:expression", "src/ast/statement/mod.rs:statement", "src/ast/mod.rs:file"]}
{"id": "C61", "title": "Exponential backtracking needs parentheses, let or case", "statement": "Reading a text of n characters that contains no opening parenthesis and neither of the letter sequences let and case calls the expression parser at most n + 1 times, whatever lists, records, record updates, lambdas, conditionals and operator chains it contains, finished or not; the bound is reached by n opening brackets. The same bound holds for function, and a file of n such characters needs at most (n + 1)^2 calls. None of the three exclusions can be dropped: for every n there are texts with parentheses only (n characters), with let only (8n characters) and with case only (18n characters) that need at least 2^n calls. Nor does it help that the text is valid: for every n there is an accepted file of 36n + 5 characters without a parenthesis that needs at least 2^n calls, because a list on a line of its own after a case is read both as a further branch and as the next binding of the enclosing let.", "quantifier": "every text without parentheses, let and case, accepted or not, every indentation; every n for the lower bounds", "why_tests_cant": "a bound on the work for all inputs including abandoned alternatives, and asymptotic lower bounds", "anchors": ["src/ast/expression/mod.rs:expression", "src/ast/expression/mod.rs:let_bindings", "src/ast/expression/mod.rs:cases", "src/ast/expression/mod.rs:term", "src/ast/mod.rs:file"]}
{"id": "C62", "title": "Exponential backtracking in types needs parentheses", "statement": "Reading a text of n characters that contains no opening parenthesis as a type or type annotation calls the type parser at most n + 1 times, whatever records, extended records, arguments and arrows it contains, finished or not; a type alias, a type declaration, a port signature and a function signature take at most n such calls. An expression without the letter sequence let calls the type parser not at all. A file of n characters without opening parentheses and let takes at most (n + 1)^2 calls of the type parser, and if it is without case, too, at most 2(n + 1)^2 calls of the type and the expression parser together. (With parentheses 2^n calls are possible, C49.)", "quantifier": "every text without opening parentheses, accepted or not, every indentation", "why_tests_cant": "a bound on the work for all inputs, including what is read in alternatives that are abandoned", "anchors": ["src/ast/type_/mod.rs:type_", "src/ast/type_/mod.rs:type_annotation", "src/ast/type_/mod.rs:type_record_constructor", "src/ast/statement/type_declaration.rs:type_declaration", "src/ast/mod.rs:file"]}
{"id": "C63", "title": "Names, operators, strings and comments are what the source's regular expressions denote", "statement": "For every text, each parser of the crate that uses re_matches! gives the result that the regular expression written in the source denotes when its text is read by the rules of the regex crate (classes, ranges, escapes, groups, alternation, repetition) and matched leftmost-first, with all matches of find_iter collected as nom does. Each expression finds at most one match, at the beginning of the text, so indexing the vector of matches with 0 never panics, and match and rest make up the text. For names, type variables, operators, comments and triple-quoted strings the match is the longest possible one; for strings it is not, because a pair of backslashes is preferred to a single one.", "quantifier": "every input text and every regular expression in the source; for the search itself, every regular expression and every place of every text", "why_tests_cant": "an equality of functions on all texts between the written patterns and what the parsers do, including characters no test mentions and ranges formed by accident in a class", "anchors": ["src/ast/helpers.rs:lo_name", "src/ast/helpers.rs:up_name", "src/ast/helpers.rs:operator", "src/ast/helpers.rs:single_line_comment", "src/ast/expression/string.rs:single_string", "src/ast/expression/string.rs:multi_string", "src/ast/type_/mod.rs:type_variable", "src/ast/statement/comment.rs:single_line_comment"]}
{"id": "C64", "title": "Dumping a directory covers exactly the .elm files below it", "statement": "For every tree of files, elm-parser-dump on a directory does the same as being run, one after the other, on the path of each file or link to a file below it, at any depth, whose name is some non-empty stem followed by .elm; no path comes twice, different places have different paths, and nothing else is read. Directories are entered and never dumped, whatever their names, and links to directories are not followed. The order is that of the listings: dumping a directory is dumping its entries in turn, subdirectories as if they had been given. A directory that cannot be listed ends the run there: what is printed is a beginning of what would be printed without the failure, and the exit status does not show it.", "quantifier": "every directory tree, every contents of the files, quiet or not", "why_tests_cant": "all trees of any depth and width, with all names, links and failures", "anchors": ["src/dump.rs:dump_directory", "src/dump.rs:dump_file", "src/dump.rs:main"]}
{"id": "C65", "title": "The grammar determines the parsers", "statement": "The expression parser is the only function from indentations and texts to results that satisfies the recursive equations of the source, in which expression is built from the parsers of its parts and these call expression again. In the same way the type parser and the parser for type annotations are the only pair that satisfies theirs. So the results do not depend on how the recursion is carried out: any implementation that follows the equations gives the same results on every text, failures included, and none of them can run forever.", "quantifier": "every function that might stand for the recursive calls, every indentation, every text", "why_tests_cant": "quantifies over all functions that could be used in place of the recursive calls", "anchors": ["src/ast/expression/mod.rs:expression", "src/ast/expression/mod.rs:term", "src/ast/type_/mod.rs:type_", "src/ast/type_/mod.rs:type_annotation"]}
{"id": "C66", "title": "Which orders of alternatives give the same parsers", "statement": "For each choice (alt!) in the source, the alternatives can be put in another order without changing the result on any text if and only if these pairs keep their order: in term, access before variable, float before integer, parentheses before tuple; in type_ and type_parameter, tuple before parentheses; among statements, functions before infix declarations; in the entries of let, bindings before functions; for strings, triple quotes before single quotes; for characters, \\xHH before any character; in infix declarations, infixl and infixr before infix; after a newline in a gap, spaces before a comment. In all other choices (expression, the targets of let bindings, variables, names, operators, signs, comments, exports, the pieces of a gap) every order gives the same parser.", "quantifier": "every permutation of the alternatives of every choice, every indentation, every text", "why_tests_cant": "all permutations of up to thirteen alternatives on all texts; for most of them the claim is that no text tells them apart", "anchors": ["src/ast/expression/mod.rs:term", "src/ast/expression/mod.rs:expression", "src/ast/expression/mod.rs:let_binding_target", "src/ast/expression/mod.rs:let_bindings", "src/ast/type_/mod.rs:type_", "src/ast/type_/mod.rs:type_parameter", "src/ast/statement/mod.rs:statement", "src/ast/expression/string.rs:string", "src/ast/expression/character.rs:character_content", "src/ast/statement/infix.rs:infix_declaration", "src/ast/statement/export.rs:exports", "src/ast/expression/variable.rs:variable", "src/ast/helpers.rs:spaces_or_new_lines_and_indent"]}
{"id": "C67", "title": "The programs read UTF-8, all of it and nothing else", "statement": "A file is read as the text s iff its bytes are the UTF-8 encoding of s; so different texts have different bytes, and a file cut off at some byte is readable iff what is missing does not start inside a character. On a file that exists, check prints the names or the error for the text whose bytes the file holds, dump the tree or the error, and both panic with nothing printed if there is no such text: in particular for every file with a byte C0, C1 or F5 to FF (UTF-16 with a byte order mark), while a file of bytes below 128 is always readable. A file that starts with the UTF-8 byte order mark is never accepted. An argument of check that is not UTF-8 makes it panic even if it is not used; an entry of a directory whose name is not UTF-8 makes no difference to dump.", "quantifier": "every sequence of bytes as file, argument or name", "why_tests_cant": "all byte sequences, including every malformed one; that decoding and encoding are inverse is a statement about all texts", "anchors": ["src/check.rs:main", "src/dump.rs:dump_file", "src/dump.rs:dump_directory"]}
{"id": "C68", "title": "Brackets match", "statement": "A scanner that knows nothing of the grammar but finds strings, character literals, comments, words, operator symbols and brackets in one pass accepts every text that the parser accepts, unless it meets one of four spellings with dashes in which it cannot tell a comment from an operator or a block comment from a record, and gives up. So in every accepted file that it reads to its end each bracket outside literals and comments is closed by its partner, with as many closing as opening brackets of each kind, every literal and block comment is finished, and no character stands outside them that belongs to no token. In particular an accepted file without quotes, `--` and `{-` is properly nested, with as many closing as opening brackets of each kind; every other text is rejected.", "quantifier": "all texts", "why_tests_cant": "The texts are unbounded, brackets nest to any depth, and the claim is about every rejected text.", "anchors": ["src/ast/expression/mod.rs:term", "src/ast/expression/mod.rs:expression", "src/ast/type_/mod.rs:type_", "src/ast/statement/mod.rs:statement", "src/ast/mod.rs:file"]}
{"id": "C69", "title": "Operators need white space around them", "statement": "Take any place in an accepted file that is not inside a string, a character literal or a comment, as the scanner of C68 finds them (up to a spelling with dashes where it gives up). There a word or a closing bracket is never directly followed by an operator symbol, except by the dot of a qualified name or a field access, by the `=`, `:` or `|` of a record directly inside its braces, or by a comment; and an operator symbol is never directly followed by a word or an opening bracket, except the dot, the backslash of a function, the sign of a number, and `=`, `:` and `|` directly inside braces. No word or opening bracket directly follows a closing bracket, and no `[` or `{` a word. So `n-1`, `a +b`, `(a)+ b`, `f =1` and `a->b` make a file fail, in whatever context they stand, while `n - 1` is a subtraction and `n -1` an application.", "quantifier": "all texts", "why_tests_cant": "It is about every position of every accepted text, and about all texts with such neighbours being rejected.", "anchors": ["src/ast/expression/mod.rs:binary", "src/ast/expression/mod.rs:application_or_var", "src/ast/helpers.rs:operator", "src/ast/type_/mod.rs:type_annotation", "src/ast/expression/function.rs:function_definition"]}
{"id": "C70", "title": "let, case and if are matched with in, of, then and else", "statement": "The scanner of C68 can also match words: `let` is closed by `in`, `case` by `of`, `if` by `then` and `then` by `else`, on the same stack as the brackets. This scanner, too, accepts every text that the parser accepts or gives up, unless the tree contains a type variable with one of these seven names, which the parser does not forbid. So a text that it rejects is no file or has such a type variable, and a text without `:` and `type` that it rejects is no file. In an accepted file without quotes, `--` and `{-` and without such a type variable the words and brackets are properly nested, with as many `in` as `let`, `of` as `case`, and `then` and `else` as `if`. The same holds for the words and brackets outside literals and comments in every accepted file without such a type variable that the scanner reads to its end.", "quantifier": "all texts", "why_tests_cant": "The words nest to any depth among each other and with the brackets, and the claim is about every accepted and every rejected text.", "anchors": ["src/ast/expression/mod.rs:let_expression", "src/ast/expression/mod.rs:case_expression", "src/ast/expression/mod.rs:if_expression", "src/ast/helpers.rs:lo_name", "src/ast/type_/mod.rs:type_variable"]}
{"id": "C71", "title": "Every part of the tree can be cut out of the text", "statement": "In the text of an accepted file every expression, every left side of a binding and every type of the tree stands on a contiguous piece of its own. The pieces of the parts of a declaration, an expression or a type lie inside the piece of the whole, in the order of the tree and without overlap. A type, or an expression without `let` and `case`, is exactly what the parser reads when it is given its piece alone, in the first column. In a text of the documented grammar a part with `let` or `case` is also what its piece alone is read as, at some indentation.", "quantifier": "all texts, all parts of the trees at any depth", "why_tests_cant": "The claim is about every part of every tree, at any depth and in any layout, and about a second run of the parser on each piece.", "anchors": ["src/ast/expression/mod.rs:expression", "src/ast/expression/mod.rs:application_or_var", "src/ast/expression/mod.rs:let_binding_target", "src/ast/type_/mod.rs:type_annotation", "src/ast/mod.rs:file"]}
{"id": "C72", "title": "When the indentation a parser is given matters", "statement": "On a text without line breaks the parsers of expressions, terms, functions and types give the same result at every indentation: the same value and rest, or the same rejection. An expression, term or definition without `let` and `case`, and any type, that is read at some indentation is read as the same tree at every smaller one, provided that what follows ends it there. With `let` this fails.", "quantifier": "all texts, all indentations", "why_tests_cant": "Two runs at two arbitrary indentations are compared on every text, including the rejected ones.", "anchors": ["src/ast/helpers.rs:spaces_or_new_lines_and_indent", "src/ast/expression/mod.rs:expression", "src/ast/expression/mod.rs:let_expression", "src/ast/type_/mod.rs:type_annotation"]}
{"id": "C73", "title": "Parts of an expression or type can be replaced in the text", "statement": "Let a text be read as an expression or declaration without `let` and `case`, and take any part of the tree, at any depth: an element, argument, operand, test, body. There is a piece of the text that is read as this part by itself, and when the piece is replaced by the text of any other term, the whole is read as the same tree with that term in this place and nothing else changed. So parentheses around any part do not change the tree, and a part can be replaced by any one-line expression in parentheses. Texts of the documented grammar with `let` and `case` have the property too. The one exception is the value of a field `{ a }` without `=`, which has no text of its own. The same holds for every part of a type, alone or in an alias, a constructor, a port or a signature.", "quantifier": "all texts, all indentations, all positions in the tree at any depth, all replacements", "why_tests_cant": "It relates two runs for every position in every tree and every replacement; a fault needs a particular context around a particular replacement.", "anchors": ["src/ast/expression/mod.rs:term", "src/ast/expression/mod.rs:expression", "src/ast/expression/mod.rs:parens", "src/ast/type_/mod.rs:type_annotation", "src/ast/statement/mod.rs:statement"]}
{"id": "C74", "title": "A slip in a single bracket or framing word makes a file fail", "statement": "Take an accepted file without strings, character literals and comments. When one bracket is left out, put in at any place, replaced by another bracket or by any text without brackets, the result is rejected. When one of the words let, in, if, then, else, case and of is misspelt, replaced by another word or left out, the result is rejected too, unless a type variable of the result has one of these names; without `:` and `type` in the text it is always rejected. (Edits that introduce a quote or a comment are excepted.)", "quantifier": "all files, all positions, all replacements", "why_tests_cant": "Every position of every accepted file and every replacement text is covered; a test edits a few places of a few files.", "anchors": ["src/ast/mod.rs:file", "src/ast/expression/mod.rs:term", "src/ast/expression/mod.rs:let_expression", "src/ast/expression/mod.rs:case_expression", "src/ast/expression/mod.rs:if_expression"]}
{"id": "C75", "title": "A closing bracket shields what stands before it from what follows", "statement": "Take a text in which nothing is left open: every bracket is closed by its partner, every string and character literal is finished and every line comment reaches its line end. Let a closing bracket and any further text follow. Then `expression`, `term`, `function` and `type_annotation` on the whole either fail for every further text, or succeed for every further text with one and the same value, and stop before the bracket. Something in brackets, with such a text between them, is one term (or type) with the same value whatever follows it, or no term at all whatever follows, except that an operator used as a name can be continued by field names; so it can be judged from its own text alone. This includes let, case, if and lambda in brackets, and failures.", "quantifier": "all texts in which nothing is left open, all closing brackets, all continuations, all indentations", "why_tests_cant": "The continuation is arbitrary and infinite in variety, as is the text before the bracket; the claim compares the parser's answers for all continuations at once, including refusals.", "anchors": ["src/ast/expression/mod.rs:expression", "src/ast/expression/mod.rs:term", "src/ast/expression/mod.rs:parens", "src/ast/expression/mod.rs:list", "src/ast/expression/mod.rs:record", "src/ast/expression/function.rs:function", "src/ast/type_/mod.rs:type_annotation"]}
{"id": "C76", "title": "A line that is indented less ends a block", "statement": "Let `expression`, `function` or `type_annotation` be called with an indentation, on a text in which nothing is left open and which does not end in white space, with an operator symbol or with the word `as`. Let a line end follow, and after it, past any blank lines and comments, anything but an arrow, all on lines indented by fewer columns than the given indentation, for `type_annotation` also on lines indented by exactly as many (or let the text end in a comment there). Then the parser does exactly what it does on the first part alone: it fails if that fails, and otherwise gives the same value and leaves over what it leaves over of the first part, followed by all the rest. In particular what is an expression as a whole stays one, and nothing that stands further to the left is ever drawn into a let binding, a case branch, a conditional, a lambda or an application. Without the conditions this is false: after an operator and after `as` the parser goes on wherever the next line begins, and so it does before the arrow of a type.", "quantifier": "all indentations, all texts in which nothing is left open and which end as said, all continuations on lines indented less", "why_tests_cant": "Block, continuation and indentation are arbitrary, nesting is unbounded, and refusals are included; every place where the grammar skips white space could break the rule.", "anchors": ["src/ast/expression/mod.rs:expression", "src/ast/expression/mod.rs:let_expression", "src/ast/expression/mod.rs:case_expression", "src/ast/expression/mod.rs:binary", "src/ast/expression/function.rs:function", "src/ast/type_/mod.rs:type_annotation", "src/ast/helpers.rs:spaces_or_new_lines_and_indent"]}
{"id": "C77", "title": "Entries of a let and branches of a case can be rearranged", "statement": "Let an expression be read as a `let` whose entries and body contain no further `let` or `case`. The text contains, in order and without overlap, a piece for each entry and one for the body, each of which alone is read as that entry or body; and whatever entries are chosen from these, in any order, any number of times and at least one, their pieces written one to a line in the column of the block make, with `in` and the body, a text that is read as the `let` of exactly the chosen entries. Pieces from different blocks can be combined in the same way if they are read at the same column. The same holds for the branches of a `case` (if no arrow is directly followed by a comment); what may follow such a `case` on a new line must then stand further to the left than the branches. Texts of the documented grammar with further `let` and `case` inside have the property too.", "quantifier": "all accepted let and case expressions without nested let and case, all selections and orders of their entries, all columns, all following texts that end an expression; all texts of the grammar", "why_tests_cant": "Entries, their number, order and layout are arbitrary; a test tries a few orders of a few blocks.", "anchors": ["src/ast/expression/mod.rs:let_bindings", "src/ast/expression/mod.rs:let_expression", "src/ast/expression/mod.rs:cases", "src/ast/expression/mod.rs:case_expression"]}
{"id": "C78", "title": "Declarations with the body on a new line end at the next line in column 0 and can be put together", "statement": "Call header the text of a declaration up to `=`: optionally a signature on the lines before, a name and arguments; or `port`, a name and argument names. After a header and a gap that ends with the body in column i, a definition or a port is read exactly if an expression is read with indentation i, with that expression as body and the same rest; and every accepted port with a body, and every accepted definition whose arguments contain no `let` or `case`, has this form. If nothing is left open in the body and it does not end in white space, an operator symbol or `as`, the definition or port is read in front of lines indented by fewer than i columns exactly as it is read alone, whatever is on these lines. So texts that alone are read as such declarations, whatever `let` and `case` their bodies contain, and texts that alone are read as any declarations without `let` and `case`, put together in any order, each on a new line and with any number of blank lines in between, are a file that is read to its end and has exactly these declarations in this order.", "quantifier": "all headers, gaps, bodies and following texts of the described form; all finite sequences of declarations and numbers of blank lines", "why_tests_cant": "The bodies are arbitrary, of any depth, and so are the texts that follow and the order; a test fixes a few files.", "anchors": ["src/ast/expression/function.rs:function", "src/ast/expression/function.rs:function_definition", "src/ast/statement/mod.rs:statements", "src/ast/mod.rs:file", "src/ast/statement/port.rs:port_declaration"]}
{"id": "C79", "title": "A file is read declaration by declaration, and one bad definition or port makes it fail wherever it stands", "statement": "Let texts be given that alone are read as declarations, each without `let` and `case` or with its body on a new line (as in C78), and let a text y begin as a declaration does, right or wrong: with a lower-case letter, an underscore or an opening bracket, and not with the word `as`. Then these texts, each followed by an end of line and any number of blank lines, in front of y are a file exactly if y is a file, and its declarations are those of the texts followed by those of y; otherwise the whole is refused. A definition or a port with its body on a new line whose body is refused as an expression, or is followed by something that does not begin a declaration, makes the file fail, wherever it stands among such declarations and whatever follows on lines indented less than the body (the header must not begin with `infix`).", "quantifier": "all finite sequences of such declarations, numbers of blank lines and rests; all headers, bodies and following texts", "why_tests_cant": "What stands before, the wrong body and what follows are arbitrary texts; a test can try a few broken files but not exclude that some later text makes one of them acceptable again.", "anchors": ["src/ast/mod.rs:file", "src/ast/statement/mod.rs:statements", "src/ast/statement/mod.rs:statement", "src/ast/expression/function.rs:function", "src/ast/statement/port.rs:port_declaration"]}
{"id": "C80", "title": "A block in the usual layout is read part by part", "statement": "Let the branches of a `case` (or the entries of a `let`) stand in one column, each with its body on a new line further to the right, where nothing in a body is left open and no body ends in white space, with an operator symbol or with `as`. A part is read exactly if its body is read alone, with its column as the indentation, and leaves what the body leaves, followed by all the lines that are indented less. If all bodies are read as a whole, the block is read as the `case` of these branches, up to a line that is indented less than the branches, whatever the bodies are (with any `let` and `case` inside); a `let` is then read exactly if an expression is read after `in`. If a body is refused, a `let` is refused as a whole; a `case` is refused if it is the first branch, and otherwise it ends before that branch and the text from there on is left over. So a mistake in one branch is never repaired by, and never changes how, the others are read. What happens when a body is read only in part is not described for the block as a whole.", "quantifier": "all columns, all patterns and left sides of the documented grammar, all bodies, all numbers of parts, all following texts on lines indented less", "why_tests_cant": "the claim is about every combination of arbitrary bodies, valid or not, and any nesting; tests fix particular blocks", "anchors": ["src/ast/expression/mod.rs:case", "src/ast/expression/mod.rs:cases", "src/ast/expression/mod.rs:case_expression", "src/ast/expression/mod.rs:let_binding", "src/ast/expression/mod.rs:let_bindings", "src/ast/expression/mod.rs:let_expression", "src/ast/helpers.rs:spaces_or_new_lines_and_indent"]}
{"id": "C81", "title": "A bad type makes a file fail wherever it stands", "statement": "Take the text of a type alias, or of a port without a body, up to its type. What follows is read as this declaration exactly if `type_annotation` reads a type there (with indentation 1 for an alias, and for a port the column its type starts in), and what is left is what the type leaves; conversely every such declaration that is accepted starts like that. Whatever the type, it ends at a line that is not indented more than that indentation: lines there, other than one with an arrow, are not looked at. A custom type ends in the same way at a line indented less than its `=`, or indented by as much and, past blank lines and comments, without a `|`. So a type alias, port or custom type whose type or constructors cannot be read, or are followed by something that does not begin a declaration, makes a file fail wherever it stands behind well-formed declarations and whatever comes after it. A signature is read exactly if its type is, a line end comes right behind the type, and a definition without signature right behind that; so a signature with an unreadable type, with anything but a line end behind the type, or with a blank line or a comment before its definition makes the file fail too.", "quantifier": "all headers, all texts of types in which nothing is left open and which end in no white space, operator symbol or `as`, all continuations on lines that are not indented more, all lists of declarations before", "why_tests_cant": "The type, what precedes it and what follows it are arbitrary and of any length; refusals of the whole file must hold for every continuation, although ten alternatives are tried on each declaration and `type alias` is also tried as a custom type.", "anchors": ["src/ast/statement/type_declaration.rs:type_alias_declaration", "src/ast/statement/type_declaration.rs:type_declaration", "src/ast/statement/port.rs:port_type_declaration", "src/ast/statement/mod.rs:statement", "src/ast/expression/function.rs:function", "src/ast/type_/mod.rs:type_annotation"]}
{"id": "C82", "title": "A file in the usual layout is accepted exactly if each of its declarations is", "statement": "Let a text consist of declarations, right or wrong, each starting on a new line, with any numbers of blank lines in between. Each of them is either any declaration without `let` and `case` that is accepted alone, or a header (of a definition with or without signature, of a port, a type alias or a custom type) followed by a text that is meant to be its body, type or constructors: nothing is left open in it, it ends in no white space, operator symbol or `as`, a body stands on a line of its own, and if a declaration is read alone, then nothing is left over that begins another one. Then `file` accepts the whole exactly if it accepts each declaration alone as a file with one declaration, and the declarations of the file are these, in order; it fails exactly if it fails on one of them alone. So whether it is accepted depends neither on the order of the declarations, nor on repetitions, nor on the blank lines. Without the last condition this is false: after a body, a line that is indented as much as the body begins a new declaration if it looks like one.", "quantifier": "all lists of declarations in this layout, right or wrong, all numbers of blank lines", "why_tests_cant": "Acceptance and refusal of arbitrarily many arbitrary declarations is related to that of each alone; every pair of a declaration and what follows it is a possible counterexample.", "anchors": ["src/ast/mod.rs:file", "src/ast/statement/mod.rs:statements", "src/ast/statement/mod.rs:statement", "src/ast/expression/function.rs:function", "src/ast/statement/type_declaration.rs:type_declaration", "src/ast/statement/port.rs:port_declaration"]}
{"id": "C83", "title": "What the programs print for a file is put together from what they print for its declarations", "statement": "Let a file consist of declarations as in C82, right or wrong. If `elm-parser-check` prints lists of names for each of the declarations alone, it prints for the file these lists one after the other; if it prints an error for one of them alone, it prints an error for the file (always with exit status 0). If the file is accepted, the output depends only on the declarations that begin with `import` and on their order: exchanging, adding, removing or moving the others changes nothing. `elm-parser-dump` prints for the file the list of the declarations it prints for each of them alone, or an error if there is one for one of them; with `--quiet` it says that the file was parsed exactly if it says so of each of them.", "quantifier": "all lists of declarations in the layout of C82, right or wrong, all numbers of blank lines, all file names and further arguments", "why_tests_cant": "The output for arbitrarily many arbitrary declarations is related to the outputs for each alone; a test sees one file.", "anchors": ["src/check.rs:main", "src/check.rs:get_imported_names", "src/dump.rs:dump_file", "src/dump.rs:main", "src/ast/mod.rs:file"]}
{"id": "C84", "title": "The work for a block or a bracket does not depend on what comes after it", "statement": "Let a text have nothing left open in it, and let it end in no white space, operator symbol or `as`. If it stands before a line end behind which, past blank lines and comments, the first line is indented by fewer columns than the indentation the parser is given (for a type: not by more), then `expression`, `function` and `type_annotation` make exactly the same calls of `expression` and of `type_`, abandoned alternatives included, and print exactly the same lines in the same order as if the text ended there, whether they succeed or fail. Between an opening place and a closing bracket the same holds for whatever stands after the bracket, and the last condition on the text is not needed. So a block without parentheses, `let` and `case` takes at most one call of `expression` per character of the block and one more, however long and however nested the rest of the file is.", "quantifier": "all texts in which nothing is left open, all lines to the left that can follow, all texts that can follow a closing bracket, all indentations, accepted and refused texts", "why_tests_cant": "The count of abandoned calls is compared on all pairs of texts with the same beginning; a test can only count calls on single inputs, and backtracking makes the counts grow exponentially.", "anchors": ["src/ast/expression/mod.rs:expression", "src/ast/expression/function.rs:function", "src/ast/type_/mod.rs:type_annotation", "src/ast/type_/mod.rs:type_", "src/ast/expression/character.rs:character_content"]}
{"id": "C85", "title": "A file takes the work of its declarations, one after the other", "statement": "Let a file consist of declarations separated by one or more line ends, each of which is accepted on its own and is the header of a module, an import, a comment, or a definition, port, type alias or custom type in the usual layout in which nothing is left open and which ends in no white space, operator symbol or `as`. Then the calls of `expression` and of `type_` that the parser makes on the file, those of abandoned alternatives included, and the lines it prints meanwhile, are exactly those for each of the declarations alone, in order. So the number of calls is the sum over the declarations, does not depend on their order or on the blank lines between them, and a declaration more adds just its own calls wherever it is put. Without parentheses, `let` and `case` such a file takes at most one call of `expression` per character and one more. What the checker prints before the names is what it prints before the names for each declaration alone, in order.", "quantifier": "all files of any number of such declarations, all orders, all numbers of blank lines", "why_tests_cant": "The calls include those of attempts that are abandoned, which can look ahead into any number of later declarations; a test counts calls only for single files.", "anchors": ["src/ast/mod.rs:file", "src/ast/statement/mod.rs:statements", "src/ast/statement/mod.rs:statement", "src/ast/expression/function.rs:function", "src/ast/statement/type_declaration.rs:type_declaration", "src/check.rs:main"]}
{"id": "C86", "title": "The report on a refused file begins in the first bad declaration", "statement": "Let a file consist of declarations in the usual layout, right or wrong, separated by one or more line ends, of each of which nothing is left over that begins another declaration. If the first declaration that is no file alone is not the first of the file, then the error reported quotes the file up to its end from a place in that declaration: from its beginning if nothing of it can be read, and otherwise from where the report on that declaration alone begins. It depends neither on the declarations before it nor on the blank lines between them, and `elm-parser-check` prints just this report and exits with status 0; `elm-parser-dump` prints the same report for it, or, if told to be quiet, that the file failed to parse. If the first declaration of the file is bad, the same holds, except that the report does not quote the file if nothing of the declaration can be read.", "quantifier": "all files of any number of such declarations, with any number of bad ones and any blank lines", "why_tests_cant": "The place reported depends on how far ordered choice reads in a bad declaration, whatever follows it; tests only fix the message for single files.", "anchors": ["src/ast/mod.rs:file", "src/ast/statement/mod.rs:statements", "src/ast/statement/mod.rs:statement", "src/check.rs:main", "src/dump.rs:dump_file"]}
{"id": "C87", "title": "What follows the first bad definition costs no work", "statement": "Let a file begin with declarations as in C85, followed by a definition with its body on a new line which is no file alone, in the text of which nothing is left open, which ends in no white space, operator symbol or `as`, and of which nothing is left over that begins another declaration, and then by any texts on lines of their own that begin like declarations. Then the calls of `expression` and of `type_` that the parser makes on the file, those of abandoned alternatives included, and the lines it prints meanwhile, are exactly those for each of the declarations alone, in order, and then those for the bad definition alone. They do not depend on what follows, also if that would take exponentially many calls. What `elm-parser-check` prints before the report is what it prints for those declarations before the names and for the bad definition before the report.", "quantifier": "all files of any number of such declarations with a bad definition among them, or as the first, and all texts after it", "why_tests_cant": "It says that no attempt anywhere in the parser looks beyond the bad definition, for all texts that can follow; a test can only count the calls for single files.", "anchors": ["src/ast/mod.rs:file", "src/ast/statement/mod.rs:statements", "src/ast/statement/mod.rs:statement", "src/ast/expression/function.rs:function", "src/ast/expression/mod.rs:expression"]}
