import Verif.Proofs.Reindent
import Verif.Props.Binaries
import Verif.Props.Totality

/-! Property C45: of the indentations of the lines of a text only the order matters. -/
namespace ElmParser
open Spec

/-! ### C45 -/

/-- C45: replace the indentation `n` of every line by `φ n`, where `φ` keeps the order of the indentations of the text
(with the given one), and 0.  Then an expression is read as the same expression up to the same place, the contents of
string literals being changed alike, or it is rejected like before. -/
theorem C45_expression {φ : Nat → Nat} (ind : Nat) (s : Str) (h : Rescales φ fun n => n = 0 ∨ n = ind ∨ Indent s n) :
    (∃ v r, expression ind s = .ok v r ∧
      expression (φ ind) (reindent φ s) = .ok (exprMap (reindent φ) v) (reindent φ r)) ∨
    (expression ind s = .err ∧ expression (φ ind) (reindent φ s) = .err) :=
  (Re.exOk_expression ⟨fun ha hb => h.2.1 _ _ ha hb, .inl rfl, h.1, fun hn => h.2.2 _ hn⟩ (.inr (.inl rfl))).cases
    (fun k => (cons_expression k _).good) (fun k => (cons_expression k _).good) fun _ hn => .inr (.inr hn)
@[inherit_doc C45_expression]
theorem C45_term {φ : Nat → Nat} (ind : Nat) (s : Str) (h : Rescales φ fun n => n = 0 ∨ n = ind ∨ Indent s n) :
    (∃ v r, term ind s = .ok v r ∧ term (φ ind) (reindent φ s) = .ok (exprMap (reindent φ) v) (reindent φ r)) ∨
    (term ind s = .err ∧ term (φ ind) (reindent φ s) = .err) :=
  have hφ : Re.Ok φ _ := ⟨fun ha hb => h.2.1 _ _ ha hb, .inl rfl, h.1, fun hn => h.2.2 _ hn⟩
  (Re.s_termF hφ (Re.exOk_expression hφ) (.inr (.inl rfl))).cases
    (fun k => (cons_term k _).good) (fun k => (cons_term k _).good) fun _ hn => .inr (.inr hn)
@[inherit_doc C45_expression]
theorem C45_function {φ : Nat → Nat} (ind : Nat) (s : Str) (h : Rescales φ fun n => n = 0 ∨ n = ind ∨ Indent s n) :
    (∃ v r, function ind s = .ok v r ∧
      function (φ ind) (reindent φ s) = .ok (functionMap (reindent φ) v) (reindent φ r)) ∨
    (function ind s = .err ∧ function (φ ind) (reindent φ s) = .err) :=
  have hφ : Re.Ok φ _ := ⟨fun ha hb => h.2.1 _ _ ha hb, .inl rfl, h.1, fun hn => h.2.2 _ hn⟩
  (Re.s_functionF hφ (Re.exOk_expression hφ) (.inr (.inl rfl))).cases
    (fun k => (cons_function k _).good) (fun k => (cons_function k _).good) fun _ hn => .inr (.inr hn)
/-- C45: the same for types; their trees stay the same. -/
theorem C45_type {φ : Nat → Nat} (ind : Nat) (s : Str) (h : Rescales φ fun n => n = 0 ∨ n = ind ∨ Indent s n) :
    (∃ v r, type_ ind s = .ok v r ∧ type_ (φ ind) (reindent φ s) = .ok v (reindent φ r)) ∨
    (type_ ind s = .err ∧ type_ (φ ind) (reindent φ s) = .err) :=
  ((Re.tyOk_tyRec ⟨fun ha hb => h.2.1 _ _ ha hb, .inl rfl, h.1, fun hn => h.2.2 _ hn⟩).ty (.inr (.inl rfl))).cases
    (fun k => (cons_type_ k _).good) (fun k => (cons_type_ k _).good) fun _ hn => .inr (.inr hn)
@[inherit_doc C45_type]
theorem C45_typeAnnotation {φ : Nat → Nat} (ind : Nat) (s : Str) (h : Rescales φ fun n => n = 0 ∨ n = ind ∨ Indent s n) :
    (∃ v r, typeAnnotation ind s = .ok v r ∧ typeAnnotation (φ ind) (reindent φ s) = .ok v (reindent φ r)) ∨
    (typeAnnotation ind s = .err ∧ typeAnnotation (φ ind) (reindent φ s) = .err) :=
  ((Re.tyOk_tyRec ⟨fun ha hb => h.2.1 _ _ ha hb, .inl rfl, h.1, fun hn => h.2.2 _ hn⟩).ann (.inr (.inl rfl))).cases
    (fun k => (cons_typeAnnotation k _).good) (fun k => (cons_typeAnnotation k _).good) fun _ hn => .inr (.inr hn)

/-- C45: the same for statements.  The body of a type alias is read with the fixed indentation 1, so
`φ` has to keep that, too (see `alias_one_space`). -/
theorem C45_statement {φ : Nat → Nat} (s : Str) (h : Rescales φ fun n => n = 0 ∨ n = 1 ∨ Indent s n) (h1 : φ 1 = 1) :
    (∃ v r, statement s = .ok v r ∧ statement (reindent φ s) = .ok (statementMap (reindent φ) v) (reindent φ r)) ∨
    (statement s = .err ∧ statement (reindent φ s) = .err) :=
  (Re.s_statement ⟨fun ha hb => h.2.1 _ _ ha hb, .inl rfl, h.1, fun hn => h.2.2 _ hn⟩ (.inr (.inl rfl)) h1).cases
    (fun k => (cons_statement k).good) (fun k => (cons_statement k).good) fun _ hn => .inr (.inr hn)
/-- C45: the same for files: a file with other indentations in the same order is accepted or rejected
like before, with the same tree up to the indentation in multi-line strings and comments. -/
theorem C45_file {φ : Nat → Nat} (s : Str) (h : Rescales φ fun n => n = 0 ∨ n = 1 ∨ Indent s n) (h1 : φ 1 = 1) :
    (∃ sts, file s = .ok sts [] ∧ file (reindent φ s) = .ok (sts.map (statementMap (reindent φ))) []) ∨
    (file s = .err ∧ file (reindent φ s) = .err) := by
  rcases (Re.s_file ⟨fun ha hb => h.2.1 _ _ ha hb, .inl rfl, h.1, fun hn => h.2.2 _ hn⟩ (.inr (.inl rfl)) h1).cases
    good_file good_file (s := s) fun _ hn => .inr (.inr hn) with ⟨v, r, h2, h3⟩ | h
  · obtain rfl := C02_file h2
    exact .inl ⟨v, h2, h3⟩
  · exact .inr h

/-! The hypotheses for a given text. -/

/-- The indentations of the lines after the first. -/
def indents : Str → List Nat
  | [] => []
  | c :: s => if c = '\n' then (s.takeWhile (· == ' ')).length :: indents s else indents s

theorem mem_indents {s : Str} {n : Nat} (h : Indent s n) : n ∈ indents s := by
  obtain ⟨a, r, rfl, hr⟩ := h
  induction a with
  | nil =>
    simp only [List.nil_append, indents, if_true]
    rw [Re.takeWhile_sp rfl]
    cases r with
    | nil => simp [sp]
    | cons c r =>
      have : c ≠ ' ' := (next_cons (P := (· ≠ ' '))).1 hr
      simp [sp, this]
  | cons c a ih =>
    rw [List.cons_append, indents]
    split
    · exact List.mem_cons_of_mem _ ih
    · exact ih

theorem rescales_of {φ : Nat → Nat} {s : Str} {i : Nat} (h0 : φ 0 = 0)
    (h : ∀ a ∈ 0 :: i :: indents s, (∀ b ∈ 0 :: i :: indents s, a < b → φ a < φ b) ∧ a < 4294967296 ∧ φ a < 4294967296) :
    Rescales φ fun n => n = 0 ∨ n = i ∨ Indent s n := by
  have mem : ∀ n, (n = 0 ∨ n = i ∨ Indent s n) → n ∈ 0 :: i :: indents s := by
    rintro n (rfl | rfl | h)
    · simp
    · simp
    · simp [mem_indents h]
  exact ⟨h0, fun a b ha hb => (h a (mem a ha)).1 b (mem b hb), fun n hn => (h n (mem n hn)).2⟩

/-- From 2 to 4 spaces. -/
def double (n : Nat) : Nat := if n ≤ 1 then n else 2 * n
/-- From 4 to 2 spaces. -/
def halve (n : Nat) : Nat := if n ≤ 1 then n else n / 2

/-- An expression with several levels, given by its lines. -/
example : Rescales halve fun n => n = 0 ∨ n = 4 ∨ Indent c!"case x of\n        1 ->\n            a\n\n        _ ->\n            b" n :=
  rescales_of rfl (by decide)
example : reindent halve c!"case x of\n        1 ->\n            a\n\n        _ ->\n            b" =
    c!"case x of\n    1 ->\n      a\n\n    _ ->\n      b" := by decide
example : expression 2 c!"case x of\n    1 ->\n      a\n\n    _ ->\n      b" =
    .ok (.Case (.Variable [c!"x"]) [(.Integer c!"1", .Variable [c!"a"]), (.Variable [c!"_"], .Variable [c!"b"])]) [] := rfl
/-- With the branches in different columns the expression ends before the second one, and it does so also after the change. -/
example : expression 0 c!"case x of\n  1 -> a\n   2 -> b" =
    .ok (.Case (.Variable [c!"x"]) [(.Integer c!"1", .Application (.Variable [c!"a"]) (.Integer c!"2"))]) c!" -> b" := rfl
example : expression 0 (reindent double c!"case x of\n  1 -> a\n   2 -> b") =
    .ok (.Case (.Variable [c!"x"]) [(.Integer c!"1", .Application (.Variable [c!"a"]) (.Integer c!"2"))])
      (reindent double c!" -> b") := rfl
/-- The order matters: with the second branch as far to the left as the first the expression is another one. -/
example : expression 0 (reindent (fun n => if n = 0 then 0 else 1) c!"case x of\n  1 -> a\n   2 -> b") =
    .ok (.Case (.Variable [c!"x"]) [(.Integer c!"1", .Variable [c!"a"]), (.Integer c!"2", .Variable [c!"b"])]) [] := rfl

/-- A file with a multi-line string, the contents of which change. -/
example : Rescales double fun n => n = 0 ∨ n = 1 ∨ Indent c!"f =\n  g \"\"\"a\n  b\"\"\"\n\ntype T\n  = A\n  | B\n" n :=
  rescales_of rfl (by decide)
example : file (reindent double c!"f =\n  g \"\"\"a\n  b\"\"\"\n\ntype T\n  = A\n  | B\n") =
    .ok [.Function (.mk none (.mk c!"f" [] (.Application (.Variable [c!"g"]) (.String c!"a\n    b")))),
      .TypeDeclaration (.TypeConstructor [c!"T"] []) [.TypeConstructor [c!"A"] [], .TypeConstructor [c!"B"] []]] [] := rfl
example : file c!"f =\n  g \"\"\"a\n  b\"\"\"\n\ntype T\n  = A\n  | B\n" =
    .ok [.Function (.mk none (.mk c!"f" [] (.Application (.Variable [c!"g"]) (.String c!"a\n  b")))),
      .TypeDeclaration (.TypeConstructor [c!"T"] []) [.TypeConstructor [c!"A"] [], .TypeConstructor [c!"B"] []]] [] := rfl

/-- The indentation 1 is different from the others: an argument on a line of its own in a type alias may be indented
by two spaces but not by one, although in a type declaration it may. -/
theorem alias_one_space :
    file c!"type alias A = B\n a" = .err ∧
    file (reindent (2 * ·) c!"type alias A = B\n a") =
      .ok [.TypeAliasDeclaration (.TypeConstructor [c!"A"] []) (.TypeConstructor [c!"B"] [.TypeVariable c!"a"])] [] ∧
    file c!"type A = B\n a" =
      .ok [.TypeDeclaration (.TypeConstructor [c!"A"] []) [.TypeConstructor [c!"B"] [.TypeVariable c!"a"]]] [] :=
  ⟨rfl, rfl, rfl⟩

/-! ### The same tree -/

mutual
theorem exprMap_id {g : Str → Str} : ∀ e : Expr, (∀ t ∈ exprTexts e, g t = t) → exprMap g e = e
  | .String s, h => by rw [exprMap, h s (by simp [exprTexts])]
  | .Character _, _ => rfl
  | .Integer _, _ => rfl
  | .Float _, _ => rfl
  | .Variable _, _ => rfl
  | .List es, h => by rw [exprMap, exprsMap_id es h]
  | .Tuple es, h => by rw [exprMap, exprsMap_id es h]
  | .Access e _, h => by rw [exprMap, exprMap_id e h]
  | .AccessFunction _, _ => rfl
  | .Record fs, h => by rw [exprMap, fieldsMap_id fs h]
  | .RecordUpdate _ fs, h => by rw [exprMap, fieldsMap_id fs h]
  | .If a b c, h => by
    simp only [exprTexts, List.mem_append] at h
    rw [exprMap, exprMap_id a fun t ht => h t (.inl (.inl ht)), exprMap_id b fun t ht => h t (.inl (.inr ht)),
      exprMap_id c fun t ht => h t (.inr ht)]
  | .Let ls e, h => by
    simp only [exprTexts, List.mem_append] at h
    rw [exprMap, entriesMap_id ls fun t ht => h t (.inl ht), exprMap_id e fun t ht => h t (.inr ht)]
  | .Case e bs, h => by
    simp only [exprTexts, List.mem_append] at h
    rw [exprMap, exprMap_id e fun t ht => h t (.inl ht), branchesMap_id bs fun t ht => h t (.inr ht)]
  | .Lambda as e, h => by
    simp only [exprTexts, List.mem_append] at h
    rw [exprMap, exprsMap_id as fun t ht => h t (.inl ht), exprMap_id e fun t ht => h t (.inr ht)]
  | .Application a b, h => by
    simp only [exprTexts, List.mem_append] at h
    rw [exprMap, exprMap_id a fun t ht => h t (.inl ht), exprMap_id b fun t ht => h t (.inr ht)]
  | .BinOp o a b, h => by
    simp only [exprTexts, List.mem_append] at h
    rw [exprMap, exprMap_id o fun t ht => h t (.inl (.inl ht)), exprMap_id a fun t ht => h t (.inl (.inr ht)),
      exprMap_id b fun t ht => h t (.inr ht)]
theorem exprsMap_id {g : Str → Str} : ∀ es : List Expr, (∀ t ∈ exprsTexts es, g t = t) → exprsMap g es = es
  | [], _ => rfl
  | e :: es, h => by
    simp only [exprsTexts, List.mem_append] at h
    rw [exprsMap, exprMap_id e fun t ht => h t (.inl ht), exprsMap_id es fun t ht => h t (.inr ht)]
theorem fieldsMap_id {g : Str → Str} : ∀ fs : List (Name × Expr), (∀ t ∈ fieldsTexts fs, g t = t) → fieldsMap g fs = fs
  | [], _ => rfl
  | (_, e) :: fs, h => by
    simp only [fieldsTexts, List.mem_append] at h
    rw [fieldsMap, exprMap_id e fun t ht => h t (.inl ht), fieldsMap_id fs fun t ht => h t (.inr ht)]
theorem branchesMap_id {g : Str → Str} : ∀ bs : List (Expr × Expr), (∀ t ∈ branchesTexts bs, g t = t) → branchesMap g bs = bs
  | [], _ => rfl
  | (p, e) :: bs, h => by
    simp only [branchesTexts, List.mem_append] at h
    rw [branchesMap, exprMap_id p fun t ht => h t (.inl (.inl ht)), exprMap_id e fun t ht => h t (.inl (.inr ht)),
      branchesMap_id bs fun t ht => h t (.inr ht)]
theorem entriesMap_id {g : Str → Str} : ∀ ls : List LetEntry, (∀ t ∈ entriesTexts ls, g t = t) → entriesMap g ls = ls
  | [], _ => rfl
  | l :: ls, h => by
    simp only [entriesTexts, List.mem_append] at h
    rw [entriesMap, entryMap_id l fun t ht => h t (.inl ht), entriesMap_id ls fun t ht => h t (.inr ht)]
theorem entryMap_id {g : Str → Str} : ∀ l : LetEntry, (∀ t ∈ entryTexts l, g t = t) → entryMap g l = l
  | .LetBinding b e, h => by
    simp only [entryTexts, List.mem_append] at h
    rw [entryMap, exprMap_id b fun t ht => h t (.inl ht), exprMap_id e fun t ht => h t (.inr ht)]
  | .LetFunction f, h => by rw [entryMap, functionMap_id f h]
theorem definitionMap_id {g : Str → Str} : ∀ d : FunctionDefinition, (∀ t ∈ definitionTexts d, g t = t) → definitionMap g d = d
  | .mk _ as e, h => by
    simp only [definitionTexts, List.mem_append] at h
    rw [definitionMap, exprsMap_id as fun t ht => h t (.inl ht), exprMap_id e fun t ht => h t (.inr ht)]
theorem functionMap_id {g : Str → Str} : ∀ f : Function, (∀ t ∈ functionTexts f, g t = t) → functionMap g f = f
  | .mk _ d, h => by rw [functionMap, definitionMap_id d h]
end

theorem statementMap_id {g : Str → Str} (st : Statement) (h : ∀ t ∈ statementTexts st, g t = t) : statementMap g st = st := by
  cases st with
  | PortDeclaration n as e => rw [statementMap, exprMap_id e h]
  | Function f => rw [statementMap, functionMap_id f h]
  | Comment t => rw [statementMap, h t (by simp [statementTexts])]
  | _ => rfl

/-- C45: if no string literal and no comment of a file spans several lines, then the file with other indentations in the
same order has the very same tree. -/
theorem C45_same {φ : Nat → Nat} {s r : Str} {sts : List Statement} (hs : file s = .ok sts r)
    (h : Rescales φ fun n => n = 0 ∨ n = 1 ∨ Indent s n) (h1 : φ 1 = 1)
    (hn : ∀ st ∈ sts, ∀ t ∈ statementTexts st, '\n' ∉ t) : file (reindent φ s) = .ok sts [] := by
  rcases C45_file s h h1 with ⟨sts', h2, h3⟩ | ⟨h2, -⟩
  · rw [hs] at h2
    cases h2
    rw [h3]
    congr 1
    rw [List.map_congr_left (g := id) fun st hst => statementMap_id st fun t ht =>
      Re.id_of_no_newline (hn st hst t ht), List.map_id]
  · rw [hs] at h2; cases h2

/-- A file with a signature, a `let`, comments, and a string. -/
example : (∀ st ∈ [Statement.Comment c!" x", .Function (.mk none (.mk c!"f" [] (.String c!"a")))], ∀ t ∈ statementTexts st, '\n' ∉ t) ∧
    file c!"-- x\nf =\n  \"a\"" = .ok [.Comment c!" x", .Function (.mk none (.mk c!"f" [] (.String c!"a")))] [] ∧
    reindent double c!"-- x\nf =\n  \"a\"" = c!"-- x\nf =\n    \"a\"" := ⟨by decide, rfl, by decide⟩

/-! ### The binaries -/

/-- Every file reads the same, except that some have other indentations in the same order. -/
def SameUpToIndents (read read' : Str → Read) : Prop :=
  ∀ f, read' f = read f ∨ ∃ φ s, φ 1 = 1 ∧ Rescales φ (fun n => n = 0 ∨ n = 1 ∨ Indent s n) ∧ read f = .contents s ∧
    read' f = .contents (reindent φ s)

theorem getImportedNames_map (g : Str → Str) (sts : List Statement) :
    getImportedNames (sts.map (statementMap g)) = getImportedNames sts := by
  induction sts with
  | nil => rfl
  | cons st sts ih =>
    have e : ∀ st sts, getImportedNames (st :: sts) = getImportedNames [st] ++ getImportedNames sts :=
      fun st sts => C31_append [st] sts
    rw [List.map_cons, e, e st, ih]
    congr 1
    cases st <;> rfl

/-- C45: the error of a rejected file shows the same text, with the other indentations. -/
theorem C45_failure {φ : Nat → Nat} (s : Str) (h : Rescales φ fun n => n = 0 ∨ n = 1 ∨ Indent s n) (h1 : φ 1 = 1) :
    failure (reindent φ s) = match failure s with
      | .eof r => .eof (reindent φ r)
      | .other => .other := by
  unfold failure
  rcases (Re.s_statements ⟨fun ha hb => h.2.1 _ _ ha hb, .inl rfl, h.1, fun hn => h.2.2 _ hn⟩ (.inr (.inl rfl)) h1).cases
    (fun k => (cons_statements k).good) (fun k => (cons_statements k).good) (s := s) fun _ hn => .inr (.inr hn) with ⟨v, r, h2, h3⟩ | ⟨h2, h3⟩ <;> rw [h2, h3]

/-- The second text is the first with other indentations. -/
def Reindented (r r' : Str) : Prop := ∃ φ, r' = reindent φ r

/-- C45: `check` prints the same and ends the same way, except that the unread text shown with an error
has the other indentations. -/
theorem C45_check {read read' : Str → Read} (h : SameUpToIndents read read') (args : List Str) :
    (checkMain read args).SameBut Reindented (checkMain read' args) := by
  unfold checkMain
  split
  · exact .refl _
  · cases args[1]? with
    | none => exact .refl _
    | some f =>
      simp only
      rcases h f with h | ⟨φ, s, h1, h2, h, h'⟩
      · rw [h]; exact .refl _
      · rw [h, h']
        rcases C45_file s h2 h1 with ⟨sts, h3, h4⟩ | ⟨h3, h4⟩
        · simp only [h3, h4, getImportedNames_map]
          exact .refl _
        · simp only [h3, h4, C45_failure s h2 h1]
          refine ⟨?_, rfl⟩
          cases failure s with
          | eof r => exact .rest ⟨φ, rfl⟩ .nil
          | other => exact .same .nil

/-- C45: `dump --quiet` prints the same and ends the same way, also for a directory. -/
theorem C45_dump {read read' : Str → Read} (h : SameUpToIndents read read') (isDir : Str → Option Bool)
    (walk : Str → List (Option Entry)) (path : Option Str) :
    dumpMain read' isDir walk path true = dumpMain read isDir walk path true := by
  have key : ∀ f, dumpFile read' f true = dumpFile read f true := by
    intro f
    unfold dumpFile
    rcases h f with h | ⟨φ, s, h1, h2, h, h'⟩
    · rw [h]
    · rw [h, h']
      rcases C45_file s h2 h1 with ⟨sts, h3, h4⟩ | ⟨h3, h4⟩
      · simp only [h3, h4, if_true]
      · simp only [h3, h4, if_true]
  have dir : ∀ walk : List (Option Entry), dumpDirectory read' true walk = dumpDirectory read true walk := by
    intro walk
    induction walk with
    | nil => rfl
    | cons e walk ih =>
      cases e with
      | none => rfl
      | some e =>
        simp only [dumpDirectory, ih]
        cases e.path with
        | none => rfl
        | some p => simp only [key]
  cases path with
  | none => rfl
  | some path => simp only [dumpMain, key, dir]

example : SameUpToIndents (fun _ => .contents c!"f =\n  1") (fun _ => .contents c!"f =\n    1") := fun _ =>
  .inr ⟨double, c!"f =\n  1", rfl, rescales_of rfl (by decide), rfl, rfl⟩
example := C45_expression (φ := double) 0 c!"case x of\n  1 -> a\n  2 -> b" (rescales_of rfl (by decide))
example := C45_term (φ := double) 0 c!"[ 1\n  , 2 ]" (rescales_of rfl (by decide))
example := C45_function (φ := double) 0 c!"f : a\nf =\n  g\n    x" (rescales_of rfl (by decide))
example := C45_type (φ := double) 0 c!"List\n  a" (rescales_of rfl (by decide))
example := C45_typeAnnotation (φ := double) 0 c!"a\n  -> b" (rescales_of rfl (by decide))
example := C45_statement (φ := double) c!"type T\n  = A\n  | B" (rescales_of rfl (by decide)) rfl
example := C45_file (φ := double) c!"f =\n  g \"\"\"a\n  b\"\"\"\n" (rescales_of rfl (by decide)) rfl
example := C45_same (φ := double) (s := c!"-- x\nf =\n  \"a\"") rfl (rescales_of rfl (by decide)) rfl (by decide)
example := C45_failure (φ := double) c!"f =\n  1\n)\n  x" (rescales_of rfl (by decide)) rfl
theorem sameUpToIndents_example : SameUpToIndents (fun _ => .contents c!"f =\n  1") (fun _ => .contents c!"f =\n    1") :=
  fun _ => .inr ⟨double, c!"f =\n  1", rfl, rescales_of rfl (by decide), rfl, rfl⟩
example := C45_check sameUpToIndents_example [c!"check", c!"a.elm"]
example := C45_dump sameUpToIndents_example (fun _ => some false) (fun _ => []) (some c!"a.elm")

end ElmParser
