import Verif.Model.Statements

/-! Generated by tools/gen_tests.py from the #[test] functions of the crate.
These are tests of the reading of the source, not proofs of properties. -/
namespace ElmParser.Tests
open ElmParser
set_option maxRecDepth 100000

private def var (n : Str) : Expr := .Variable [n]
private def int (n : Str) : Expr := .Integer n
private def application (a b : Expr) : Expr := .Application a b
private def bin_op (o l r : Expr) : Expr := .BinOp o l r
private def if_ (a b c : Expr) : Expr := .If a b c
private def tvar (n : Str) : Ty := .TypeVariable n
private def tapp (a b : Ty) : Ty := .TypeApplication a b
private def tcon (n : Str) (v : List Ty) : Ty := .TypeConstructor [n] v
private def fexp (n : Str) : ExportSet := .FunctionExport n
private def texp (n : Str) (e : Option ExportSet) : ExportSet := .TypeExport n e
private def imp (n : Str) (a : Option Name) (e : Option ExportSet) : Statement :=
  .ImportStatement [n] a e
private def isOk {α : Type} : Res α → Bool
  | .ok _ _ => true
  | _ => false

-- src/ast/expression/access_function.rs:20 simple_access_function
example : accessFunction c!".property" =
    .ok (.AccessFunction c!"property") c!"" := by rfl

-- src/ast/expression/character.rs:41 character_literal
example : character c!"'a'" =
    .ok (.Character 'a') c!"" := by rfl

-- src/ast/expression/character.rs:49 newline_literal
example : character c!"'\n'" =
    .ok (.Character '\n') c!"" := by rfl

-- src/ast/expression/character.rs:57 charcode_literal
example : character c!"'\\x23'" =
    .ok (.Character '#') c!"" := by rfl

-- src/ast/expression/character.rs:66 character_literals_must_contain_one_character
example : character c!"''" = .err := by rfl

-- src/ast/expression/float.rs:25 float_literal
example : float c!"1.01" =
    .ok (.Float c!"1.01") c!"" := by rfl

-- src/ast/expression/float.rs:33 postive_float_literal
example : float c!"+1.5" =
    .ok (.Float c!"+1.5") c!"" := by rfl

-- src/ast/expression/float.rs:41 negative_float_literal
example : float c!"-1.8" =
    .ok (.Float c!"-1.8") c!"" := by rfl

-- src/ast/expression/function.rs:81 simple_function_type
example : functionSignature 0 c!"f : Int -> Int" =
    .ok (FunctionSignature.mk c!"f" (tapp (tcon c!"Int" []) (tcon c!"Int" []))) c!"" := by rfl

-- src/ast/expression/function.rs:95 simple_function_type_with_new_line
example : functionSignature 0 c!"f : Int ->\n  Int" =
    .ok (FunctionSignature.mk c!"f" (tapp (tcon c!"Int" []) (tcon c!"Int" []))) c!"" := by rfl

-- src/ast/expression/function.rs:109 simple_function
example : functionDefinition 0 c!"f x = a { r | f = 1 }    c" =
    .ok (.mk c!"f" [(var c!"x")] (application (application (var c!"a") (.RecordUpdate c!"r" [(c!"f", (.Integer c!"1"))])) (var c!"c"))) c!"" := by rfl

-- src/ast/expression/function.rs:133 simple_function_with_new_line
example : functionDefinition 0 c!"f x = a \n c" =
    .ok (.mk c!"f" [(var c!"x")] (application (var c!"a") (var c!"c"))) c!"" := by rfl

-- src/ast/expression/function.rs:148 function_type_with_tuple
example : functionSignature 0 c!"h : (Int, Int) -> Int" =
    .ok (FunctionSignature.mk c!"h" (tapp (.TypeTuple [(tcon c!"Int" []), (tcon c!"Int" [])]) (tcon c!"Int" []))) c!"" := by rfl

-- src/ast/expression/function.rs:165 function_type_with_operator
example : functionSignature 0 c!"(+) : Int -> Int" =
    .ok (FunctionSignature.mk c!"+" (tapp (tcon c!"Int" []) (tcon c!"Int" []))) c!"" := by rfl

-- src/ast/expression/function.rs:179 function_with_operator
example : functionDefinition 0 c!"(+) a b = 1" =
    .ok (.mk c!"+" [(var c!"a"), (var c!"b")] (int c!"1")) c!"" := by rfl

-- src/ast/expression/function.rs:194 multi_line_function_type
example : functionSignature 0 c!"cssm :\n    CssModules.Helpers\n        { a : String\n        , b : String\n        }\n        msg" =
    .ok (FunctionSignature.mk c!"cssm" (.TypeConstructor [c!"CssModules", c!"Helpers"] [(.TypeRecord [(c!"a", (.TypeConstructor [c!"String"] [])), (c!"b", (.TypeConstructor [c!"String"] []))]), (.TypeVariable c!"msg")])) c!"" := by rfl

-- src/ast/expression/function.rs:233 multi_line_function_type_with_parens
example : functionSignature 0 c!"classes :\n    List\n        ({ viewReportPage : String } -> String\n        )" =
    .ok (FunctionSignature.mk c!"classes" (tcon c!"List" [(tapp (.TypeRecord [(c!"viewReportPage", (tcon c!"String" []))]) (tcon c!"String" []))])) c!"" := by rfl

-- src/ast/expression/function.rs:264 function_with_signature
example : function 0 c!"f : Int -> Int\nf x = a \n c" =
    .ok (.mk (some (FunctionSignature.mk c!"f" (tapp (tcon c!"Int" []) (tcon c!"Int" [])))) (.mk c!"f" [(var c!"x")] (application (var c!"a") (var c!"c")))) c!"" := by rfl

-- src/ast/expression/function.rs:285 function_without_signature
example : function 0 c!"f x = a \n c" =
    .ok (.mk none (.mk c!"f" [(var c!"x")] (application (var c!"a") (var c!"c")))) c!"" := by rfl

-- src/ast/expression/integer.rs:23 int_literal
example : integer c!"101" =
    .ok (.Integer c!"101") c!"" := by rfl

-- src/ast/expression/integer.rs:31 postive_int_literal
example : integer c!"+15" =
    .ok (.Integer c!"+15") c!"" := by rfl

-- src/ast/expression/integer.rs:39 negative_int_literal
example : integer c!"-18" =
    .ok (.Integer c!"-18") c!"" := by rfl

-- src/ast/expression/mod.rs:391 simple_tuple
example : tuple expression 0 c!"(a,b)" =
    .ok (.Tuple [(var c!"a"), (var c!"b")]) c!"" := by rfl

-- src/ast/expression/mod.rs:399 simple_tuple_with_formatting
example : tuple expression 0 c!"( a, b )" =
    .ok (.Tuple [(var c!"a"), (var c!"b")]) c!"" := by rfl

-- src/ast/expression/mod.rs:409 empty_list
example : list expression 0 c!"[]" =
    .ok (.List []) c!"" := by rfl

-- src/ast/expression/mod.rs:417 simple_list
example : list expression 0 c!"[a,b]" =
    .ok (.List [(var c!"a"), (var c!"b")]) c!"" := by rfl

-- src/ast/expression/mod.rs:425 simple_list_with_formatting
example : list expression 0 c!"[ a, b ]" =
    .ok (.List [(var c!"a"), (var c!"b")]) c!"" := by rfl

-- src/ast/expression/mod.rs:433 simple_int_list
example : list expression 0 c!"[1,2]" =
    .ok (.List [(int c!"1"), (int c!"2")]) c!"" := by rfl

-- src/ast/expression/mod.rs:441 multi_line_list
example : list expression 0 c!"[ 1\n                     , 2\n                     ]" =
    .ok (.List [(int c!"1"), (int c!"2")]) c!"" := by rfl

-- src/ast/expression/mod.rs:456 tuple_list
example : list expression 0 c!"[(a, b), (a, b)]" =
    .ok (.List [(.Tuple [(var c!"a"), (var c!"b")]), (.Tuple [(var c!"a"), (var c!"b")])]) c!"" := by rfl

-- src/ast/expression/mod.rs:472 simple_variable
example : applicationOrVar expression 0 c!"abc" =
    .ok (var c!"abc") c!"" := by rfl

-- src/ast/expression/mod.rs:480 simple_application
example : applicationOrVar expression 0 c!"f a" =
    .ok (.Application (var c!"f") (var c!"a")) c!"" := by rfl

-- src/ast/expression/mod.rs:491 curried_application
example : applicationOrVar expression 0 c!"f a b" =
    .ok (.Application (.Application (var c!"f") (var c!"a")) (var c!"b")) c!"" := by rfl

-- src/ast/expression/mod.rs:508 curried_application_with_parens
example : applicationOrVar expression 0 c!"(f a) b" =
    .ok (.Application (.Application (var c!"f") (var c!"a")) (var c!"b")) c!"" := by rfl

-- src/ast/expression/mod.rs:525 multiline_application
example : applicationOrVar expression 0 c!"f\n   a\n b" =
    .ok (.Application (.Application (var c!"f") (var c!"a")) (var c!"b")) c!"" := by rfl

-- src/ast/expression/mod.rs:542 multiline_bug
example : applicationOrVar expression 0 c!"f\n (==)" =
    .ok (.Application (var c!"f") (var c!"==")) c!"" := by rfl

-- src/ast/expression/mod.rs:553 same_multiline_bug
example : applicationOrVar expression 0 c!"f\n \"I like the symbol =\"" =
    .ok (.Application (var c!"f") (.String c!"I like the symbol =")) c!"" := by rfl

-- src/ast/expression/mod.rs:567 constructor_application
example : applicationOrVar expression 0 c!"Cons a Nil" =
    .ok (.Application (.Application (var c!"Cons") (var c!"a")) (var c!"Nil")) c!"" := by rfl

-- src/ast/expression/mod.rs:584 application_with_record_update
example : applicationOrVar expression 0 c!"a  { r | f = 1 } c" =
    .ok (application (application (var c!"a") (.RecordUpdate c!"r" [(c!"f", (int c!"1"))])) (var c!"c")) c!"" := by rfl

-- src/ast/expression/mod.rs:606 simple_record
example : record expression 0 c!"{ a = b }" =
    .ok (.Record [(c!"a", (var c!"b"))]) c!"" := by rfl

-- src/ast/expression/mod.rs:617 simple_record_with_many_fields
example : record expression 0 c!"{ a = b, b = 2 }" =
    .ok (.Record [(c!"a", (var c!"b")), (c!"b", (int c!"2"))]) c!"" := by rfl

-- src/ast/expression/mod.rs:631 multi_line_record
example : record expression 1 c!"{ a = b\n                     , b = 2\n                     }" =
    .ok (.Record [(c!"a", (var c!"b")), (c!"b", (int c!"2"))]) c!"" := by rfl

-- src/ast/expression/mod.rs:652 multi_line_record_with_comments
example : record expression 1 c!"{ a = b\n                       -- First comment\n                     , b = 2 -- Second comment\n                     }" =
    .ok (.Record [(c!"a", (var c!"b")), (c!"b", (int c!"2"))]) c!"" := by rfl

-- src/ast/expression/mod.rs:674 simple_record_with_many_tuple_fields
example : record expression 0 c!"{ a = (a, b), b = (a, b) }" =
    .ok (.Record [(c!"a", (.Tuple [(var c!"a"), (var c!"b")])), (c!"b", (.Tuple [(var c!"a"), (var c!"b")]))]) c!"" := by rfl

-- src/ast/expression/mod.rs:688 simple_record_with_updated_field
example : recordUpdate expression 0 c!"{ a | b = 2, c = 3 }" =
    .ok (.RecordUpdate c!"a" [(c!"b", (int c!"2")), (c!"c", (int c!"3"))]) c!"" := by rfl

-- src/ast/expression/mod.rs:702 simple_record_with_advanced_field
example : record expression 0 c!"{ a = Just 2 }" =
    .ok (.Record [(c!"a", (application (var c!"Just") (int c!"2")))]) c!"" := by rfl

-- src/ast/expression/mod.rs:713 simple_record_update_with_advanced_field
example : recordUpdate expression 0 c!"{ a | a = Just 2 }" =
    .ok (.RecordUpdate c!"a" [(c!"a", (application (var c!"Just") (int c!"2")))]) c!"" := by rfl

-- src/ast/expression/mod.rs:727 record_update_with_comment
example : recordUpdate expression 0 c!"{ a\n                      -- Comment about something\n                        | b = 1\n                    }" =
    .ok (.RecordUpdate c!"a" [(c!"b", (int c!"1"))]) c!"" := by rfl

-- src/ast/expression/mod.rs:746 simple_record_destructuring_pattern
example : simplifiedRecord c!"{ a, b }" =
    .ok (.Record [(c!"a", (var c!"a")), (c!"b", (var c!"b"))]) c!"" := by rfl

-- src/ast/expression/mod.rs:762 simple_binary_op
example : binary expression 0 c!"x + 1" =
    .ok (.BinOp (var c!"+") (var c!"x") (int c!"1")) c!"" := by rfl

-- src/ast/expression/mod.rs:775 let_single_binding
example : letBinding expression 0 c!"a = 42" =
    .ok (.LetBinding (var c!"a") (int c!"42")) c!"" := by rfl

-- src/ast/expression/mod.rs:783 let_group_single_binding
example : letBindings expression 0 c!"a = 42" =
    .ok [(.LetBinding (var c!"a") (int c!"42"))] c!"" := by rfl

-- src/ast/expression/mod.rs:794 let_group_single_function
example : letBindings expression 0 c!"a b = 42" =
    .ok [(.LetFunction (.mk none (.mk c!"a" [(var c!"b")] (int c!"42"))))] c!"" := by rfl

-- src/ast/expression/mod.rs:812 let_group_single_function_and_signature
example : letBindings expression 0 c!"a : Int -> Int\na b = 42" =
    .ok [(.LetFunction (.mk (some (FunctionSignature.mk c!"a" (tapp (tcon c!"Int" []) (tcon c!"Int" [])))) (.mk c!"a" [(var c!"b")] (int c!"42"))))] c!"" := by rfl

-- src/ast/expression/mod.rs:833 let_group_two_functions
example : letBindings expression 0 c!"a b = 42\nc d = 24" =
    .ok [(.LetFunction (.mk none (.mk c!"a" [(var c!"b")] (int c!"42")))), (.LetFunction (.mk none (.mk c!"c" [(var c!"d")] (int c!"24"))))] c!"" := by rfl

-- src/ast/expression/mod.rs:861 let_block_with_single_binding
example : letExpression expression 0 c!"let a = 42 in a" =
    .ok (.Let [(.LetBinding (var c!"a") (int c!"42"))] (var c!"a")) c!"" := by rfl

-- src/ast/expression/mod.rs:875 let_block_bind_to_underscore
example : letExpression expression 0 c!"let _ = 42 in 24" =
    .ok (.Let [(.LetBinding (var c!"_") (int c!"42"))] (int c!"24")) c!"" := by rfl

-- src/ast/expression/mod.rs:889 let_block_can_start_with_a_tag_name
example : letExpression expression 0 c!"let letter = 1 \n in letter" =
    .ok (.Let [(.LetBinding (var c!"letter") (int c!"1"))] (var c!"letter")) c!"" := by rfl

-- src/ast/expression/mod.rs:903 let_block_function_1
example : letExpression expression 0 c!"let\n f x = x + 1\nin\n f 4" =
    .ok (.Let [(.LetFunction (.mk none (.mk c!"f" [(var c!"x")] (bin_op (var c!"+") (var c!"x") (int c!"1")))))] (application (var c!"f") (int c!"4"))) c!"" := by rfl

-- src/ast/expression/mod.rs:932 let_block_function_2
example : letExpression expression 0 c!"let\n  f x = x + 1\n  g x = x + 1\nin\n  f 4" =
    .ok (.Let [(.LetFunction (.mk none (.mk c!"f" [(var c!"x")] (bin_op (var c!"+") (var c!"x") (int c!"1"))))), (.LetFunction (.mk none (.mk c!"g" [(var c!"x")] (bin_op (var c!"+") (var c!"x") (int c!"1")))))] (application (var c!"f") (int c!"4"))) c!"" := by rfl

-- src/ast/expression/mod.rs:972 let_block_multiple_bindings
example : letExpression expression 0 c!"let\n  a = 42\n  b = a + 1\nin\n  b" =
    .ok (.Let [(.LetBinding (var c!"a") (int c!"42")), (.LetBinding (var c!"b") (bin_op (var c!"+") (var c!"a") (int c!"1")))] (var c!"b")) c!"" := by rfl

-- src/ast/expression/mod.rs:998 let_block_function_with_function_signature
example : letExpression expression 0 c!"let\n f : Int -> Int\n f x = x + 1\nin\n f 4" =
    .ok (.Let [(.LetFunction (.mk (some (FunctionSignature.mk c!"f" (tapp (tcon c!"Int" []) (tcon c!"Int" [])))) (.mk c!"f" [(var c!"x")] (bin_op (var c!"+") (var c!"x") (int c!"1")))))] (application (var c!"f") (int c!"4"))) c!"" := by rfl

-- src/ast/expression/mod.rs:1031 let_block_destructuring
example : expression 0 c!"let (a,b) = (1,2) in a" =
    .ok (.Let [(.LetBinding (.Tuple [(var c!"a"), (var c!"b")]) (.Tuple [(int c!"1"), (int c!"2")]))] (var c!"a")) c!"" := by rfl

-- src/ast/expression/mod.rs:1050 case_simple_statement
example : caseExpression expression 0 c!"case x of\n  Nothing ->\n    0\n  Just y ->\n    y" =
    .ok (.Case (var c!"x") [((var c!"Nothing"), (int c!"0")), ((application (var c!"Just") (var c!"y")), (var c!"y"))]) c!"" := by rfl

-- src/ast/expression/mod.rs:1076 case_simple_statement_with_blank_line
example : caseExpression expression 0 c!"case x of\n  Nothing ->\n    0\n\n  Just y ->\n    y" =
    .ok (.Case (var c!"x") [((var c!"Nothing"), (int c!"0")), ((application (var c!"Just") (var c!"y")), (var c!"y"))]) c!"" := by rfl

-- src/ast/expression/mod.rs:1103 case_binding_to_underscore
example : caseExpression expression 0 c!"case x of\n  _ ->\n    42" =
    .ok (.Case (var c!"x") [((var c!"_"), (int c!"42"))]) c!"" := by rfl

-- src/ast/expression/mod.rs:1121 case_nested
example : caseExpression expression 0 c!"case x of\n  a -> a\n  b ->\n    case y of\n      a1 -> a1\n      b1 -> b1\n  c -> c" =
    .ok (.Case (var c!"x") [((var c!"a"), (var c!"a")), ((var c!"b"), (.Case (var c!"y") [((var c!"a1"), (var c!"a1")), ((var c!"b1"), (var c!"b1"))])), ((var c!"c"), (var c!"c"))]) c!"" := by rfl

-- src/ast/expression/mod.rs:1158 if_statement
example : ifExpression expression 0 c!"if a then\n  1\nelse \n  2" =
    .ok (if_ (var c!"a") (int c!"1") (int c!"2")) c!"" := by rfl

-- src/ast/expression/mod.rs:1174 if_statement_with_tuple
example : ifExpression expression 0 c!"if (a, b) == (1, 2) then\n  1\nelse \n  2" =
    .ok (if_ (bin_op (var c!"==") (.Tuple [(var c!"a"), (var c!"b")]) (.Tuple [(int c!"1"), (int c!"2")])) (int c!"1") (int c!"2")) c!"" := by rfl

-- src/ast/expression/mod.rs:1201 if_statement_else_if_else
example : ifExpression expression 0 c!"if a then\n  1\nelse if b then\n  2\nelse\n  3" =
    .ok (if_ (var c!"a") (int c!"1") (if_ (var c!"b") (int c!"2") (int c!"3"))) c!"" := by rfl

-- src/ast/expression/mod.rs:1224 operator_passed_to_map
example : expression 0 c!"reduce (+) list" =
    .ok (application (application (var c!"reduce") (var c!"+")) (var c!"list")) c!"" := by rfl

-- src/ast/expression/mod.rs:1235 partial_application
example : expression 0 c!"(+) 2" =
    .ok (application (var c!"+") (int c!"2")) c!"" := by rfl

-- src/ast/expression/mod.rs:1243 case_with_as
example : expression 0 c!"case a of \nT _ as x -> 1" =
    .ok (.Case (var c!"a") [((.BinOp (var c!"as") (application (var c!"T") (var c!"_")) (var c!"x")), (int c!"1"))]) c!"" := by rfl

-- src/ast/expression/mod.rs:1264 lambda_destructuring
example : expression 0 c!"\\(a,b) acc -> 1" =
    .ok (.Lambda [(.Tuple [(var c!"a"), (var c!"b")]), (var c!"acc")] (int c!"1")) c!"" := by rfl

-- src/ast/expression/mod.rs:1278 access
example : expression 0 c!"Module.a" =
    .ok (.Access (var c!"Module") [c!"a"]) c!"" := by rfl

-- src/ast/expression/mod.rs:1289 access_function
example : expression 0 c!"map .a list" =
    .ok (application (application (var c!"map") (.AccessFunction c!"a")) (var c!"list")) c!"" := by rfl

-- src/ast/expression/string.rs:41 empty_string
example : string c!"\"\"" =
    .ok (.String c!"") c!"" := by rfl

-- src/ast/expression/string.rs:49 simple_string
example : string c!"\"hello\"" =
    .ok (.String c!"hello") c!"" := by rfl

-- src/ast/expression/string.rs:57 escaped_string
example : string c!"\"hello, \\\"world\\\"\"" =
    .ok (.String c!"hello, \\\"world\\\"") c!"" := by rfl

-- src/ast/expression/string.rs:68 double_escaped_string
example : string c!"\"\\\\\"" =
    .ok (.String c!"\\\\") c!"" := by rfl

-- src/ast/expression/string.rs:76 empty_triple_quote_string
example : string c!"\"\"\"\"\"\"" =
    .ok (.String c!"") c!"" := by rfl

-- src/ast/expression/string.rs:84 simple_multi_line_string
example : string c!"\"\"\"hello\nworld\"\"\"" =
    .ok (.String c!"hello\nworld") c!"" := by rfl

-- src/ast/expression/variable.rs:47 simple_variable
example : variableP c!"abc" =
    .ok (.Variable [c!"abc"]) c!"" := by rfl

-- src/ast/expression/variable.rs:58 simple_variable_with_digits
example : variableP c!"abc123" =
    .ok (.Variable [c!"abc123"]) c!"" := by rfl

-- src/ast/expression/variable.rs:69 single_letter_variable
example : variableP c!"a" =
    .ok (.Variable [c!"a"]) c!"" := by rfl

-- src/ast/expression/variable.rs:77 upper_letter_variable
example : variableP c!"Abc" =
    .ok (.Variable [c!"Abc"]) c!"" := by rfl

-- src/ast/expression/variable.rs:88 operator_in_parens
example : variableP c!"(==)" =
    .ok (.Variable [c!"=="]) c!"" := by rfl

-- src/ast/expression/variable.rs:99 invalid_variable_2
example : variableP c!"3bc" = .err := by rfl

-- src/ast/helpers.rs:183 simple_operator
example : operator c!"==" =
    .ok c!"==" c!"" := by rfl

-- src/ast/helpers.rs:191 another_simple_operator
example : operator c!":-" =
    .ok c!":-" c!"" := by rfl

-- src/ast/helpers.rs:199 invalid_operator
example : operator c!"=" = .err := by rfl

-- src/ast/helpers.rs:204 valid_zero_spaces
example : gap 0 .GTE c!"\n " =
    .ok 1 c!"" := by rfl

-- src/ast/helpers.rs:212 invalid_zero_spaces
example : gap 1 .GTE c!"\n" = .err := by rfl

-- src/ast/helpers.rs:217 spaces_with_comment
example : gap 0 .GTE c!" -- Comment\n  " =
    .ok 2 c!"" := by rfl

-- src/ast/helpers.rs:225 just_spaces
example : gap 1 .GTE c!"   " =
    .ok 1 c!"" := by rfl

-- src/ast/helpers.rs:233 opt_just_spaces
example : optGap 1 .GTE c!"   " =
    .ok 1 c!"" := by rfl

-- src/ast/helpers.rs:241 opt_no_spaces
example : optGap 2 .GTE c!"" =
    .ok 2 c!"" := by rfl

-- src/ast/helpers.rs:249 simple_name
example : loName c!"goToUserPage" =
    .ok c!"goToUserPage" c!"" := by rfl

-- src/ast/mod.rs:22 simple_file
example : isOk (file c!"module Test exposing (..)\n\nmain : Program Flags Model Msg\nmain =\n    myProgram\n") = true := by rfl

-- src/ast/statement/comment.rs:36 simple_comment
example : comment c!"-- abc" =
    .ok (.Comment c!" abc") c!"" := by rfl

-- src/ast/statement/comment.rs:44 comment_with_trailing_white_space
example : comment c!"-- abc  " =
    .ok (.Comment c!" abc  ") c!"" := by rfl

-- src/ast/statement/comment.rs:52 open_close_comment
example : comment c!"{- cba -}" =
    .ok (.Comment c!" cba ") c!"" := by rfl

-- src/ast/statement/comment.rs:60 multi_line_comment
example : comment c!"{- c\nb\na -}" =
    .ok (.Comment c!" c\nb\na ") c!"" := by rfl

-- src/ast/statement/export.rs:91 simple_all_export
example : exports c!"(..)" =
    .ok .AllExport c!"" := by rfl

-- src/ast/statement/export.rs:99 simple_function_export
example : exports c!"(a, b)" =
    .ok (.SubsetExport [(fexp c!"a"), (fexp c!"b")]) c!"" := by rfl

-- src/ast/statement/export.rs:110 simple_multiline_function_export
example : exports c!"( a\n,\n b\n,\nc)" =
    .ok (.SubsetExport [(fexp c!"a"), (fexp c!"b"), (fexp c!"c")]) c!"" := by rfl

-- src/ast/statement/export.rs:121 simple_operator_export
example : exports c!"((=>), (++))" =
    .ok (.SubsetExport [(fexp c!"=>"), (fexp c!"++")]) c!"" := by rfl

-- src/ast/statement/export.rs:132 simple_constructors_export
example : exports c!"(ReadOnly, Write(..), Sync(First, Last))" =
    .ok (.SubsetExport [(.TypeExport c!"ReadOnly" none), (.TypeExport c!"Write" (some .AllExport)), (.TypeExport c!"Sync" (some (.SubsetExport [(fexp c!"First"), (fexp c!"Last")])))]) c!"" := by rfl

-- src/ast/statement/import.rs:48 simple_import
example : importStatement c!"import A" =
    .ok (imp c!"A" none none) c!"" := by rfl

-- src/ast/statement/import.rs:56 import_as
example : importStatement c!"import A as B" =
    .ok (imp c!"A" (some c!"B") none) c!"" := by rfl

-- src/ast/statement/import.rs:64 import_exposing_all
example : importStatement c!"import A exposing (..)" =
    .ok (imp c!"A" none (some .AllExport)) c!"" := by rfl

-- src/ast/statement/import.rs:72 import_exposing
example : importStatement c!"import A exposing (A, b)" =
    .ok (imp c!"A" none (some (.SubsetExport [(texp c!"A" none), (fexp c!"b")]))) c!"" := by rfl

-- src/ast/statement/import.rs:87 import_exposing_union
example : importStatement c!"import A exposing (A(..))" =
    .ok (imp c!"A" none (some (.SubsetExport [(texp c!"A" (some .AllExport))]))) c!"" := by rfl

-- src/ast/statement/import.rs:105 import_exposing_constructor_subset
example : importStatement c!"import A exposing (A(A))" =
    .ok (imp c!"A" none (some (.SubsetExport [(texp c!"A" (some (.SubsetExport [(fexp c!"A")])))]))) c!"" := by rfl

-- src/ast/statement/import.rs:123 import_multiline
example : importStatement c!"import A as B exposing (A, B,\nc)" =
    .ok (imp c!"A" (some c!"B") (some (.SubsetExport [(texp c!"A" none), (texp c!"B" none), (fexp c!"c")]))) c!"" := by rfl

-- src/ast/statement/infix.rs:33 non
example : infixDeclaration c!"infix 9 :-" =
    .ok (.InfixDeclaration .N 9 c!":-") c!"" := by rfl

-- src/ast/statement/infix.rs:44 left
example : infixDeclaration c!"infixl 8 :=:" =
    .ok (.InfixDeclaration .L 8 c!":=:") c!"" := by rfl

-- src/ast/statement/infix.rs:55 right
example : infixDeclaration c!"infixr 7 -+-" =
    .ok (.InfixDeclaration .R 7 c!"-+-") c!"" := by rfl

-- src/ast/statement/mod.rs:58 simple_statements
example : isOk (statements c!"module Test exposing (..)\n\nmain : Program Flags Model Msg\nmain =\n    myProgram\n") = true := by rfl

-- src/ast/statement/module.rs:79 simple_declaration_exposing_all
example : moduleDeclaration c!"module A exposing (..)" =
    .ok (.ModuleDeclaration [c!"A"] .AllExport) c!"" := by rfl

-- src/ast/statement/module.rs:90 declaration_exposing_particular_things
example : moduleDeclaration c!"module A exposing (A, b)" =
    .ok (.ModuleDeclaration [c!"A"] (.SubsetExport [(.TypeExport c!"A" none), (fexp c!"b")])) c!"" := by rfl

-- src/ast/statement/module.rs:107 declaration_exposing_an_infix_operator
example : moduleDeclaration c!"module A exposing ((?))" =
    .ok (.ModuleDeclaration [c!"A"] (.SubsetExport [(fexp c!"?")])) c!"" := by rfl

-- src/ast/statement/module.rs:121 declaration_exposing_union
example : moduleDeclaration c!"module A exposing (A(..))" =
    .ok (.ModuleDeclaration [c!"A"] (.SubsetExport [(.TypeExport c!"A" (some .AllExport))])) c!"" := by rfl

-- src/ast/statement/module.rs:138 declaration_exposing_constructor_subset
example : moduleDeclaration c!"module A exposing (A(A))" =
    .ok (.ModuleDeclaration [c!"A"] (.SubsetExport [(.TypeExport c!"A" (some (.SubsetExport [(fexp c!"A")])))])) c!"" := by rfl

-- src/ast/statement/module.rs:155 multiline_declaration
example : moduleDeclaration c!"module\n A\n exposing\n ( A, B,\nc)" =
    .ok (.ModuleDeclaration [c!"A"] (.SubsetExport [(.TypeExport c!"A" none), (.TypeExport c!"B" none), (fexp c!"c")])) c!"" := by rfl

-- src/ast/statement/module.rs:173 declaration_using_a_port
example : portModuleDeclaration c!"port module A exposing (A(..))" =
    .ok (.PortModuleDeclaration [c!"A"] (.SubsetExport [(.TypeExport c!"A" (some .AllExport))])) c!"" := by rfl

-- src/ast/statement/module.rs:190 simple_effects
example : effectModuleDeclaration c!"effect module A where {subscription = MySub, command = MyCmd} exposing (..)" =
    .ok (.EffectModuleDeclaration [c!"A"] [(c!"subscription", c!"MySub"), (c!"command", c!"MyCmd")] .AllExport) c!"" := by rfl

-- src/ast/statement/port.rs:56 constant
example : portTypeDeclaration c!"port focus : String -> Cmd msg" =
    .ok (.PortTypeDeclaration c!"focus" (tapp (tcon c!"String" []) (tcon c!"Cmd" [(tvar c!"msg")]))) c!"" := by rfl

-- src/ast/statement/port.rs:70 another_port_type_declaration
example : portTypeDeclaration c!"port users : (User -> msg) -> Sub msg" =
    .ok (.PortTypeDeclaration c!"users" (tapp (tapp (tcon c!"User" []) (tvar c!"msg")) (tcon c!"Sub" [(tvar c!"msg")]))) c!"" := by rfl

-- src/ast/statement/port.rs:87 port_definition
example : portDeclaration c!"port focus = Cmd.none" =
    .ok (.PortDeclaration c!"focus" [] (.Access (.Variable [c!"Cmd"]) [c!"none"])) c!"" := by rfl

-- src/ast/statement/type_declaration.rs:58 can_parse_empty_record_aliases
example : typeAliasDeclaration c!"type alias A = {}" =
    .ok (.TypeAliasDeclaration (.TypeConstructor [c!"A"] []) (.TypeRecord [])) c!"" := by rfl

-- src/ast/statement/type_declaration.rs:72 can_parse_aliases_of_unit
example : typeAliasDeclaration c!"type alias A = ()" =
    .ok (.TypeAliasDeclaration (.TypeConstructor [c!"A"] []) (.TypeTuple [])) c!"" := by rfl

-- src/ast/statement/type_declaration.rs:86 multi_line_record
example : typeAliasDeclaration c!"type alias A =\n { a : String\n , b : String\n }" =
    .ok (.TypeAliasDeclaration (.TypeConstructor [c!"A"] []) (.TypeRecord [(c!"a", (.TypeConstructor [c!"String"] [])), (c!"b", (.TypeConstructor [c!"String"] []))])) c!"" := by rfl

-- src/ast/statement/type_declaration.rs:111 multi_line_record_with_tuple_list
example : typeAliasDeclaration c!"type alias A =\n { a : String\n , b : List ( String, String )\n }" =
    .ok (.TypeAliasDeclaration (.TypeConstructor [c!"A"] []) (.TypeRecord [(c!"a", (.TypeConstructor [c!"String"] [])), (c!"b", (.TypeConstructor [c!"List"] [(.TypeTuple [(tcon c!"String" []), (tcon c!"String" [])])]))])) c!"" := by rfl

-- src/ast/statement/type_declaration.rs:142 can_parse_simple_type_declaration
example : typeDeclaration 0 c!"type A = A" =
    .ok (.TypeDeclaration (.TypeConstructor [c!"A"] []) [(.TypeConstructor [c!"A"] [])]) c!"" := by rfl

-- src/ast/statement/type_declaration.rs:156 can_parse_multi_type_declaration
example : typeDeclaration 0 c!"type A = A | B | C" =
    .ok (.TypeDeclaration (.TypeConstructor [c!"A"] []) [(.TypeConstructor [c!"A"] []), (.TypeConstructor [c!"B"] []), (.TypeConstructor [c!"C"] [])]) c!"" := by rfl

-- src/ast/statement/type_declaration.rs:174 can_parse_multiline_type_declaration
example : typeDeclaration 0 c!"type A\n  = A | B\n  | C\n  | D" =
    .ok (.TypeDeclaration (.TypeConstructor [c!"A"] []) [(.TypeConstructor [c!"A"] []), (.TypeConstructor [c!"B"] []), (.TypeConstructor [c!"C"] []), (.TypeConstructor [c!"D"] [])]) c!"" := by rfl

-- src/ast/statement/type_declaration.rs:193 can_parse_complex_function_alias
example : typeAliasDeclaration c!"type alias LanguageHelper a b =\n    ({ b\n        | commonErrorName : a\n        , commonErrorDescription : a\n        , kpiErrorCalculationType : a\n        , kpiErrorAggregationType : a\n     }\n     -> a\n    )\n    -> String" =
    .ok (.TypeAliasDeclaration (tcon c!"LanguageHelper" [(tvar c!"a"), (tvar c!"b")]) (tapp (tapp (.TypeRecordConstructor (tvar c!"b") [(c!"commonErrorName", (tvar c!"a")), (c!"commonErrorDescription", (tvar c!"a")), (c!"kpiErrorCalculationType", (tvar c!"a")), (c!"kpiErrorAggregationType", (tvar c!"a"))]) (tvar c!"a")) (tcon c!"String" []))) c!"" := by rfl

-- src/ast/type_/mod.rs:190 constant
example : typeAnnotation 0 c!"Int" =
    .ok (.TypeConstructor [c!"Int"] []) c!"" := by rfl

-- src/ast/type_/mod.rs:201 variables
example : typeAnnotation 0 c!"a" =
    .ok (tvar c!"a") c!"" := by rfl

-- src/ast/type_/mod.rs:209 variables_with_numbers
example : typeAnnotation 0 c!"a1" =
    .ok (tvar c!"a1") c!"" := by rfl

-- src/ast/type_/mod.rs:217 empty_record
example : typeAnnotation 0 c!"{}" =
    .ok (.TypeRecord []) c!"" := by rfl

-- src/ast/type_/mod.rs:225 empty_tuple
example : typeAnnotation 0 c!"()" =
    .ok (.TypeTuple []) c!"" := by rfl

-- src/ast/type_/mod.rs:233 basic_record
example : typeAnnotation 0 c!"{ a : String }" =
    .ok (.TypeRecord [(c!"a", (tcon c!"String" []))]) c!"" := by rfl

-- src/ast/type_/mod.rs:244 two_entry_record
example : typeAnnotation 0 c!"{ a : String, b : String }" =
    .ok (.TypeRecord [(c!"a", (tcon c!"String" [])), (c!"b", (tcon c!"String" []))]) c!"" := by rfl

-- src/ast/type_/mod.rs:258 multi_line_record
example : typeAnnotation 0 c!"{\n                 a : String\n               , b : String\n}" =
    .ok (.TypeRecord [(c!"a", (tcon c!"String" [])), (c!"b", (tcon c!"String" []))]) c!"" := by rfl

-- src/ast/type_/mod.rs:280 multi_line_record_with_comments
example : typeAnnotation 0 c!"{\n                 -- First comment\n                 a : String\n\n                 -- Second comment\n               , b : String -- Third comment\n}" =
    .ok (.TypeRecord [(c!"a", (tcon c!"String" [])), (c!"b", (tcon c!"String" []))]) c!"" := by rfl

-- src/ast/type_/mod.rs:305 list_of_tuples
example : typeAnnotation 0 c!"List ( String, String )" =
    .ok (tcon c!"List" [(.TypeTuple [(tcon c!"String" []), (tcon c!"String" [])])]) c!"" := by rfl

-- src/ast/type_/mod.rs:322 application
example : typeAnnotation 0 c!"a -> b" =
    .ok (tapp (tvar c!"a") (tvar c!"b")) c!"" := by rfl

-- src/ast/type_/mod.rs:330 application_associativity
example : typeAnnotation 0 c!"a -> b -> c" =
    .ok (tapp (tvar c!"a") (tapp (tvar c!"b") (tvar c!"c"))) c!"" := by rfl

-- src/ast/type_/mod.rs:338 application_parens
example : typeAnnotation 0 c!"(a -> b) -> c" =
    .ok (tapp (tapp (tvar c!"a") (tvar c!"b")) (tvar c!"c")) c!"" := by rfl

-- src/ast/type_/mod.rs:346 qualified_types
example : typeAnnotation 0 c!"Html.App Msg" =
    .ok (.TypeConstructor [c!"Html", c!"App"] [(.TypeConstructor [c!"Msg"] [])]) c!"" := by rfl

-- src/ast/type_/mod.rs:360 multi_line_type
example : typeAnnotation 0 c!"CssModules.Helpers\n        { a : String\n        , b : String\n        }\n        msg" =
    .ok (.TypeConstructor [c!"CssModules", c!"Helpers"] [(.TypeRecord [(c!"a", (.TypeConstructor [c!"String"] [])), (c!"b", (.TypeConstructor [c!"String"] []))]), (.TypeVariable c!"msg")]) c!"" := by rfl

-- src/ast/type_/mod.rs:395 can_parse_simple_type_record_constructor
example : typeAnnotation 0 c!"{ b | commonErrorName : a }" =
    .ok (.TypeRecordConstructor (tvar c!"b") [(c!"commonErrorName", (tvar c!"a"))]) c!"" := by rfl

-- src/ast/type_/mod.rs:409 can_parse_multi_line_type_record_constructor
example : typeAnnotation 0 c!"{ b\n        | commonErrorName : a\n        , commonErrorDescription : a\n        , kpiErrorCalculationType : a\n        , kpiErrorAggregationType : a\n     }" =
    .ok (.TypeRecordConstructor (tvar c!"b") [(c!"commonErrorName", (tvar c!"a")), (c!"commonErrorDescription", (tvar c!"a")), (c!"kpiErrorCalculationType", (tvar c!"a")), (c!"kpiErrorAggregationType", (tvar c!"a"))]) c!"" := by rfl

-- src/ast/type_/mod.rs:438 can_parse_multi_line_type_record_constructor_in_function
example : typeAnnotation 0 c!"({ b\n        | commonErrorName : a\n        , commonErrorDescription : a\n        , kpiErrorCalculationType : a\n        , kpiErrorAggregationType : a\n      }\n      -> a\n     )\n     -> String" =
    .ok (tapp (tapp (.TypeRecordConstructor (tvar c!"b") [(c!"commonErrorName", (tvar c!"a")), (c!"commonErrorDescription", (tvar c!"a")), (c!"kpiErrorCalculationType", (tvar c!"a")), (c!"kpiErrorAggregationType", (tvar c!"a"))]) (tvar c!"a")) (tcon c!"String" [])) c!"" := by rfl

-- src/ast/type_/mod.rs:476 multi_line_with_parens
example : typeAnnotation 0 c!"List\n    ({ viewReportPage : String } -> String\n    )" =
    .ok (tcon c!"List" [(tapp (.TypeRecord [(c!"viewReportPage", (tcon c!"String" []))]) (tcon c!"String" []))]) c!"" := by rfl

/-! The files of /repo/examples. -/

-- examples/Basic.elm
example : file c!"module Basic exposing (..)\n\nimport String\n\n\na : Int\na =\n    1\n" =
    .ok [.ModuleDeclaration [c!"Basic"] .AllExport, .ImportStatement [c!"String"] none none,
      .Function (.mk (some (.mk c!"a" (tcon c!"Int" []))) (.mk c!"a" [] (.Integer c!"1")))] [] := by rfl

-- examples/Lists.elm
example : file c!"module Lists exposing (..)\n\nisListLengthFour : (List a) -> Bool\nisListLengthFour list =\n  case List.length list of\n    4 -> True\n    _ -> False\n" =
    .ok [.ModuleDeclaration [c!"Lists"] .AllExport,
      .Function (.mk (some (.mk c!"isListLengthFour" (tapp (.TypeTuple [tcon c!"List" [tvar c!"a"]]) (tcon c!"Bool" []))))
        (.mk c!"isListLengthFour" [.Variable [c!"list"]]
          (.Case (.Application (.Access (.Variable [c!"List"]) [c!"length"]) (.Variable [c!"list"]))
            [(.Integer c!"4", .Variable [c!"True"]), (.Variable [c!"_"], .Variable [c!"False"])])))] [] := by rfl

-- examples/MutateRecord.elm
example : file c!"module MutateRecord exposing (..)\n\ntype alias Model =\n  { name: String\n  }\n\nrenameToSteve : Model -> Model\nrenameToSteve model =\n  { model | name = \"Steve\" }\n" =
    .ok [.ModuleDeclaration [c!"MutateRecord"] .AllExport,
      .TypeAliasDeclaration (tcon c!"Model" []) (.TypeRecord [(c!"name", tcon c!"String" [])]),
      .Function (.mk (some (.mk c!"renameToSteve" (tapp (tcon c!"Model" []) (tcon c!"Model" []))))
        (.mk c!"renameToSteve" [.Variable [c!"model"]]
          (.RecordUpdate c!"model" [(c!"name", .String c!"Steve")])))] [] := by rfl

end ElmParser.Tests
