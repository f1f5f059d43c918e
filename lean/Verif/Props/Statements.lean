import Verif.Proofs.StmtText
import Verif.Proofs.StmtNames
import Verif.Props.Exprs

/-! Properties of statements and files: C03, C04, C20, C24, C34, C35, C36, C39, and the statement
parts of C08, C21 and C25. -/
namespace ElmParser
open Spec

/-! ### C03 -/

/-- C03: an accepted file has at least one statement. -/
theorem C03_nonempty {s r : Str} {sts : List Statement} (h : file s = .ok sts r) : sts ≠ [] := by
  obtain ⟨-, w, d, -, -, hd⟩ := file_sound h
  exact stmts_ne hd
example := C03_nonempty (s := c!"import A as B exposing (f, T(C, D))\n\n-- c\nf : Int -> a\nf x =\n  g x.y \"s\"\n") rfl

/-- C03: a file without statements is rejected. -/
theorem C03_white {s : Str} (h : ∀ c ∈ s, White c) : file s = .err := by
  have e : multispace0 s = .ok s [] := multispace0_iff.2 ⟨by simp, h, next_nil _⟩
  unfold file statements
  rw [terminated_apply, delimited_apply, e]
  rfl

example : file c!" \t\r\n\n " = .err := C03_white (by decide)
example : file [] = .err := C03_white (by simp)
example : file c!"-- only a comment" = .ok [.Comment c!" only a comment"] [] := rfl

/-! ### C04 -/

theorem multispace0_prefix {w s : Str} (h : ∀ c ∈ w, White c) :
    ∃ v t, multispace0 s = .ok v t ∧ multispace0 (w ++ s) = .ok (w ++ v) t := by
  have : ∀ s : Str, ∃ v t, s = v ++ t ∧ (∀ c ∈ v, White c) ∧ Next (fun c => ¬ White c) t := by
    intro s
    induction s with
    | nil => exact ⟨[], [], rfl, by simp, next_nil _⟩
    | cons c s ih =>
      by_cases hc : White c
      · obtain ⟨v, t, rfl, h1, h2⟩ := ih
        exact ⟨c :: v, t, rfl, List.forall_mem_cons.2 ⟨hc, h1⟩, h2⟩
      · exact ⟨[], c :: s, rfl, by simp, next_cons.2 hc⟩
  obtain ⟨v, t, rfl, h1, h2⟩ := this s
  exact ⟨v, t, multispace0_iff.2 ⟨rfl, h1, h2⟩,
    multispace0_iff.2 ⟨by simp, List.forall_mem_append.2 ⟨h, h1⟩, h2⟩⟩

/-- C04: white space before a file is irrelevant. -/
theorem C04_leading {w s : Str} (h : ∀ c ∈ w, White c) : file (w ++ s) = file s := by
  obtain ⟨v, t, h1, h2⟩ := multispace0_prefix (s := s) h
  unfold file statements
  simp only [terminated_apply, delimited_apply, h1, h2, andThen_ok]

example : file (c!"\n\t " ++ c!"x = 1") = file c!"x = 1" := C04_leading (by decide)
/-- An example where both sides succeed. -/
example : file c!"x = 1" =
    .ok [.Function (.mk none (.mk c!"x" [] (.Integer c!"1")))] [] := rfl
/-- White space in front of a single statement is not skipped. -/
example : statement c!" x = 1" = .err := rfl

/-! ### C20 -/

/-- C20: the statements the parser returns are well formed. -/
theorem C20_file {s r : Str} {sts : List Statement} (h : file s = .ok sts r) : ∀ x ∈ sts, WFStatement x := by
  obtain ⟨-, w, d, -, -, hd⟩ := file_sound h
  exact stmts_wf hd
example := C20_file (s := c!"import A as B exposing (f, T(C, D))\n\n-- c\nf : Int -> a\nf x =\n  g x.y \"s\"\n") rfl (.Comment c!" c") (.tail _ (.head _))

theorem C20_statement {s r : Str} {x : Statement} (h : statement s = .ok x r) : WFStatement x := by
  rcases statement_sound h with ⟨t, rfl, -, h, -⟩ | ⟨c, -, hc⟩
  · exact .inl h
  · exact stmtSrc_wf hc
example := C20_statement (s := c!"import A.B as C exposing (f, T(..), (+))\n\nx = 1") rfl

example : file c!"type A a = B a (C, D) | E\n\ninfixl 4 +++\nimport X.Y as Z exposing (f, (+), T(..), U(V, W))" =
    .ok [.TypeDeclaration (.TypeConstructor [c!"A"] [.TypeVariable c!"a"])
        [.TypeConstructor [c!"B"] [.TypeVariable c!"a", .TypeTuple [.TypeConstructor [c!"C"] [], .TypeConstructor [c!"D"] []]],
         .TypeConstructor [c!"E"] []],
      .InfixDeclaration .L 4 c!"+++",
      .ImportStatement [c!"X", c!"Y"] (some c!"Z") (some (.SubsetExport
        [.FunctionExport c!"f", .FunctionExport c!"+", .TypeExport c!"T" (some .AllExport),
         .TypeExport c!"U" (some (.SubsetExport [.FunctionExport c!"V", .FunctionExport c!"W"]))]))] [] := rfl

/-- Well-formedness is a real restriction. -/
example : ¬ WFStatement (.ModuleDeclaration [] .AllExport) := fun h => h.1.1 rfl
example : ¬ WFStatement (.ModuleDeclaration [c!"A"] (.SubsetExport [])) := fun h => h.2.1 rfl
example : ¬ WFStatement (.ModuleDeclaration [c!"A"] (.FunctionExport c!"f")) := fun h => h.2
example : ¬ WFStatement (.ImportStatement [c!"A"] none (some (.SubsetExport [.AllExport]))) :=
  fun h => (h.2.2 _ rfl).2 .AllExport (by simp)
example (t : Ty) : ¬ WFStatement (.TypeDeclaration t []) := fun h => h.2.1 rfl
example (t : Ty) (v : Name) : ¬ WFStatement (.TypeDeclaration t [.TypeVariable v]) := by
  intro h
  obtain ⟨-, ns, ts, e⟩ := h.2.2 (.TypeVariable v) (by simp)
  cases e
example (a : Assoc) (n : Name) : ¬ WFStatement (.InfixDeclaration a (-1) n) := by
  intro h
  exact absurd h.1.1 (by decide)
example : ¬ WFStatement (.Comment c!"a\n-}") := by
  rintro (h | h)
  · exact h (by decide)
  · exact h c!"a\n" [] rfl

/-! ### C08 (files) -/

/-- C08: no reserved word is a name in an accepted file, except `as` as an operator. -/
theorem C08_file {s r : Str} {sts : List Statement} (h : file s = .ok sts r) :
    ∀ x ∈ sts, ∀ n ∈ statementNames x, n ∉ keywords := fun x hx => free_statement (C20_file h x hx)
example : c!"A" ∉ keywords :=
  C08_file (s := c!"import A\nx = y") rfl (.ImportStatement [c!"A"] none none) (.head _) c!"A" (by decide)

example : file c!"port module A exposing (f)\nport g : B -> c\nh x = f x.y" =
    .ok [.PortModuleDeclaration [c!"A"] (.SubsetExport [.FunctionExport c!"f"]),
      .PortTypeDeclaration c!"g" (.TypeApplication (.TypeConstructor [c!"B"] []) (.TypeVariable c!"c")),
      .Function (.mk none (.mk c!"h" [.Variable [c!"x"]]
        (.Application (.Variable [c!"f"]) (.Access (.Variable [c!"x"]) [c!"y"]))))] [] ∧
    statementNames (.PortTypeDeclaration c!"g" (.TypeApplication (.TypeConstructor [c!"B"] []) (.TypeVariable c!"c"))) =
      [c!"g", c!"B"] := ⟨rfl, by simp [statementNames, tyNames, tysNames]⟩
/-- A reserved word in the place of a name makes the file fail. -/
example : file c!"port = 1" = .err := rfl
example : file c!"x = { type = 1 }" = .err := rfl

/-! ### C21 (files) -/

/-- C21: an accepted text is a layout of the returned statements: exactly their tokens in order, with
gaps, white space, comments and redundant parentheses between them. -/
theorem C21_file {s r : Str} {sts : List Statement} (h : file s = .ok sts r) : r = [] ∧ FileSrc False sts s :=
  file_sound h
example := C21_file (s := c!"import A as B exposing (f, T(C, D))\n\n-- c\nf : Int -> a\nf x =\n  g x.y \"s\"\n") rfl
theorem C21_statement {s r : Str} {x : Statement} (h : statement s = .ok x r) :
    (∃ t, x = .Comment t ∧ s = c!"--" ++ t ++ r ∧ '\n' ∉ t ∧ Next (· = '\n') r) ∨ ∃ c, s = c ++ r ∧ StmtSrc False x c := by
  rcases statement_sound h with ⟨t, h1, h2, h3, h4⟩ | h
  · exact .inl ⟨t, h1, h2, h3, h4⟩
  · exact .inr h
example := C21_statement (s := c!"import A.B as C exposing (f, T(..), (+))\n\nx = 1") rfl

example : file c!"-- a\nmodule A exposing (..)\n{- b -}\nx = 1\n" =
    .ok [.Comment c!" a", .ModuleDeclaration [c!"A"] .AllExport, .Comment c!" b ",
      .Function (.mk none (.mk c!"x" [] (.Integer c!"1")))] [] := rfl

/-! ### C24 -/

/-- C24: every layout of a list of statements parses to exactly that list. -/
theorem C24_file {sts : List Statement} {c : Str} (h : FileSrc True sts c) : file c = .ok sts [] := file_complete h

/-- `c` is a text of the statement `x`; a line comment is given without the end of its line. -/
def StmtText (st : Prop) (x : Statement) (c : Str) : Prop :=
  StmtSrc st x c ∨ ∃ t, x = .Comment t ∧ '\n' ∉ t ∧ c = c!"--" ++ t

/-- Texts, each on a new line. -/
def lines : List Str → Str
  | [] => []
  | c :: cs => '\n' :: (c ++ lines cs)

theorem stmts_lines {ps : List (Statement × Str)} (h : ∀ p ∈ ps, StmtText True p.1 p.2) :
    Stmts True false (ps.map (·.1)) (lines (ps.map (·.2))) ∧
      ∀ p : Statement × Str, StmtText True p.1 p.2 →
        Stmts True true (p.1 :: ps.map (·.1)) (p.2 ++ lines (ps.map (·.2))) := by
  have step : ∀ (ps : List (Statement × Str)), Stmts True false (ps.map (·.1)) (lines (ps.map (·.2))) →
      ∀ p : Statement × Str, StmtText True p.1 p.2 →
        Stmts True true (p.1 :: ps.map (·.1)) (p.2 ++ lines (ps.map (·.2))) := by
    rintro ps hps ⟨x, c⟩ (hp | ⟨t, rfl, ht, rfl⟩)
    · exact .stmt hp hps
    · refine .line ht ?_ hps
      cases ps with
      | nil => exact next_nil _
      | cons => exact next_cons.2 rfl
  have main : Stmts True false (ps.map (·.1)) (lines (ps.map (·.2))) := by
    induction ps with
    | nil => exact .last (by simp [Whites, lines])
    | cons p ps ih =>
      have := step ps (ih fun p hp => h p (List.mem_cons_of_mem _ hp)) p (h p (by simp))
      exact .sep (w := ['\n']) (by simp [Whites, White]) (by simp) (fun _ => .inl ⟨[], rfl⟩) this
  exact ⟨main, step ps main⟩

/-- C24: texts of statements on consecutive lines parse to the list of statements. -/
theorem C24_newlines (p : Statement × Str) (ps : List (Statement × Str)) (h : ∀ q ∈ p :: ps, StmtText True q.1 q.2) :
    file (p.2 ++ lines (ps.map (·.2))) = .ok (p.1 :: ps.map (·.1)) [] :=
  C24_file ⟨[], _, rfl, by simp [Whites], (stmts_lines fun q hq => h q (List.mem_cons_of_mem _ hq)).2 p (h p (by simp))⟩

theorem texts_exist {sts : List Statement} (h : ∀ x ∈ sts, WFStatement x) :
    ∃ ps : List (Statement × Str), ps.map (·.1) = sts ∧ ∀ p ∈ ps, StmtText True p.1 p.2 := by
  induction sts with
  | nil => exact ⟨[], rfl, by simp⟩
  | cons x sts ih =>
    obtain ⟨ps, rfl, hps⟩ := ih fun x hx => h x (List.mem_cons_of_mem _ hx)
    rcases wfStatement_text (h x (by simp)) with ⟨c, hc⟩ | ⟨t, rfl, ht⟩
    · exact ⟨(x, c) :: ps, rfl, List.forall_mem_cons.2 ⟨.inl hc, hps⟩⟩
    · exact ⟨(.Comment t, c!"--" ++ t) :: ps, rfl, List.forall_mem_cons.2 ⟨.inr ⟨t, rfl, ht, rfl⟩, hps⟩⟩

/-- C24: the lists the parser can return are exactly the non-empty lists of well-formed statements. -/
theorem C24_exactly {sts : List Statement} :
    (∃ s, file s = .ok sts []) ↔ sts ≠ [] ∧ ∀ x ∈ sts, WFStatement x := by
  constructor
  · rintro ⟨s, h⟩
    exact ⟨C03_nonempty h, C20_file h⟩
  · rintro ⟨hne, h⟩
    obtain ⟨ps, rfl, hps⟩ := texts_exist h
    cases ps with
    | nil => exact absurd rfl hne
    | cons p ps => exact ⟨_, C24_newlines p ps hps⟩

theorem ex_A : UpName c!"A" := ⟨'A', [], rfl, by decide, by simp⟩

/-- `import A` -/
theorem ex_import : StmtSrc True (.ImportStatement [c!"A"] none none) c!"import A" :=
  .import_ (w := c!" ") (ns := [c!"A"]) (c := []) (d := []) spacesTxt_space (by simp)
    (by simp only [List.mem_singleton, forall_eq]; exact ex_A) .none .none

/-- `f x =⏎  x` -/
theorem ex_fn : StmtSrc True (.Function (.mk none (.mk c!"f" [.Variable [c!"x"]] (.Variable [c!"x"])))) c!"f x =\n  x" :=
  .function (.fn (.defn (m := c!"f") (cs := c!" x") (w := c!" ") (g := c!"\n  ") (d := c!"x") (i := 2) (.lo ex_f)
    (.fargs (w := c!" ") (c := c!"x") (cs := []) spacesTxt_space (ex_var 0 ex_x) .fargs0) spacesTxt_space
    (gapTxt_line (ind := 0) (ir := .GT) (n := 2) (show 0 < 2 by omega) (by omega)) (ex_term (ex_var 2 ex_x))))

example : file (c!"import A" ++ lines [c!"--c", c!"f x =\n  x"]) =
    .ok [.ImportStatement [c!"A"] none none, .Comment c!"c",
      .Function (.mk none (.mk c!"f" [.Variable [c!"x"]] (.Variable [c!"x"])))] [] :=
  C24_newlines (.ImportStatement [c!"A"] none none, c!"import A")
    [(.Comment c!"c", c!"--c"), (.Function (.mk none (.mk c!"f" [.Variable [c!"x"]] (.Variable [c!"x"]))), c!"f x =\n  x")]
    (by
      simp only [List.forall_mem_cons, List.not_mem_nil, false_imp_iff, implies_true, and_true]
      exact ⟨.inl ex_import, .inr ⟨_, rfl, by decide, rfl⟩, .inl ex_fn⟩)

/-! ### C25 (files) -/

/-- C25: a text is a layout of at most one list of statements. -/
theorem C25_file_unambiguous {sts sts' : List Statement} {c : Str} (h : FileSrc True sts c) (h' : FileSrc True sts' c) :
    sts = sts' := by
  have k := C24_file h
  rw [C24_file h'] at k
  exact (Res.ok.inj k).1.symm

/-- C25: two files give the same statements iff they are layouts of the same statements. -/
theorem C25_file {sts sts' : List Statement} {c d : Str} (h : FileSrc True sts c) (h' : FileSrc True sts' d) :
    file c = file d ↔ sts = sts' := by
  rw [C24_file h, C24_file h']
  constructor
  · intro h; exact (Res.ok.inj h).1
  · rintro rfl; rfl

example : file c!"import A" = file c!"\n\timport A \n\n" ↔
    [Statement.ImportStatement [c!"A"] none none] = [.ImportStatement [c!"A"] none none] := by
  refine C25_file ⟨[], c!"import A", rfl, by simp [Whites], ?_⟩ ⟨c!"\n\t", c!"import A \n\n", rfl, by simp [Whites, White], ?_⟩
  · exact .stmt (r := []) ex_import (.last (by simp [Whites]))
  · exact .stmt (r := c!" \n\n") ex_import (.last (by simp [Whites, White]))
example := C24_file (sts := [.ImportStatement [c!"A"] none none]) (c := c!"\n\timport A \n\n")
  ⟨c!"\n\t", c!"import A \n\n", rfl, by simp [Whites, White], .stmt (r := c!" \n\n") ex_import (.last (by simp [Whites, White]))⟩
example {sts : List Statement} := C25_file_unambiguous (sts := [.ImportStatement [c!"A"] none none]) (sts' := sts) (c := c!"\n\timport A \n\n")
  ⟨c!"\n\t", c!"import A \n\n", rfl, by simp [Whites, White], .stmt (r := c!" \n\n") ex_import (.last (by simp [Whites, White]))⟩

/-! ### C39 -/

/-- A part of a file: the white space before a statement, its text and the statement. -/
structure Part where
  white : Str
  text : Str
  statement : Statement

theorem stmts_parts {b : Bool} {sts : List Statement} {c : Str} (h : Stmts False b sts c) :
    ∃ (ps : List Part) (w : Str), sts = ps.map (·.statement) ∧ c = ps.flatMap (fun p => p.white ++ p.text) ++ w ∧
      Whites w ∧ (∀ p ∈ ps, Whites p.white ∧ StmtText False p.statement p.text) ∧
      (∀ p ∈ ps.tail, p.white ≠ []) ∧ if b then ∃ p qs, ps = p :: qs ∧ p.white = [] else ∀ p ∈ ps, p.white ≠ [] := by
  induction h with
  | last hw => exact ⟨[], _, rfl, rfl, hw, by simp, by simp, by simp⟩
  | @sep w sts c hw hne _ _ ih =>
    obtain ⟨ps, w', rfl, rfl, h1, h2, h3, h4⟩ := ih
    simp only [if_true] at h4
    obtain ⟨⟨w0, t, x⟩, qs, rfl, rfl⟩ := h4
    refine ⟨⟨w, t, x⟩ :: qs, w', rfl, by simp, h1, ?_, h3, ?_⟩
    · exact List.forall_mem_cons.2 ⟨⟨hw, (h2 ⟨[], t, x⟩ (by simp)).2⟩, fun p hp => h2 p (List.mem_cons_of_mem _ hp)⟩
    · simp only [Bool.false_eq_true, if_false]
      exact List.forall_mem_cons.2 ⟨hne, h3⟩
  | @line t sts r ht _ _ ih =>
    obtain ⟨ps, w, rfl, rfl, h1, h2, h3, h4⟩ := ih
    simp only [Bool.false_eq_true, if_false] at h4
    exact ⟨⟨[], c!"--" ++ t, .Comment t⟩ :: ps, w, rfl, by simp, h1,
      List.forall_mem_cons.2 ⟨⟨by simp [Whites], .inr ⟨t, rfl, ht, rfl⟩⟩, h2⟩, h4, by simp⟩
  | @stmt x c sts r hc _ ih =>
    obtain ⟨ps, w, rfl, rfl, h1, h2, h3, h4⟩ := ih
    simp only [Bool.false_eq_true, if_false] at h4
    exact ⟨⟨[], c, x⟩ :: ps, w, rfl, by simp, h1,
      List.forall_mem_cons.2 ⟨⟨by simp [Whites], .inl hc⟩, h2⟩, h4, by simp⟩

/-- C39: in an accepted file there is white space before every statement but the first. -/
theorem C39_separated {s r : Str} {sts : List Statement} (h : file s = .ok sts r) :
    ∃ (ps : List Part) (w : Str), sts = ps.map (·.statement) ∧ s = ps.flatMap (fun p => p.white ++ p.text) ++ w ∧
      Whites w ∧ (∀ p ∈ ps, Whites p.white ∧ StmtText False p.statement p.text) ∧ ∀ p ∈ ps.tail, p.white ≠ [] := by
  obtain ⟨-, w, d, rfl, hw, hd⟩ := file_sound h
  obtain ⟨ps, w', rfl, rfl, h1, h2, h3, h4⟩ := stmts_parts hd
  simp only [if_true] at h4
  obtain ⟨⟨w0, t, x⟩, qs, rfl, rfl⟩ := h4
  exact ⟨⟨w, t, x⟩ :: qs, w', rfl, by simp, h1,
    List.forall_mem_cons.2 ⟨⟨hw, (h2 ⟨[], t, x⟩ (by simp)).2⟩, fun p hp => h2 p (List.mem_cons_of_mem _ hp)⟩, h3⟩
example := C39_separated (s := c!"import A as B exposing (f, T(C, D))\n\n-- c\nf : Int -> a\nf x =\n  g x.y \"s\"\n") rfl

/-- Reading statements from `s`, with white space between them, stops at `r`. -/
inductive Reads : Str → Str → Prop
  | last {s x r} : statement s = .ok x r → Reads s r
  | more {s x w t r} : statement s = .ok x (w ++ t) → (∀ c ∈ w, White c) → w ≠ [] → Reads t r → Reads s r

theorem statement_notWhite {s r : Str} {x : Statement} (h : statement s = .ok x r) : Next (fun c => ¬ White c) s := by
  rintro c t rfl hc
  rw [statement_white hc] at h
  cases h

theorem Reads.notWhite {s r : Str} (h : Reads s r) : Next (fun c => ¬ White c) s := by
  cases h with
  | last h => exact statement_notWhite h
  | more h => exact statement_notWhite h

theorem Reads.run {s r : Str} (h : Reads s r) :
    ∃ x t xs, statement s = .ok x t ∧ Run (preceded multispace statement) t xs r := by
  induction h with
  | last h => exact ⟨_, _, [], h, .nil _⟩
  | @more s x w t r h hw hne hr ih =>
    obtain ⟨y, u, ys, h1, h2⟩ := ih
    refine ⟨x, _, y :: ys, h, run_cons (cons_preceded' cons_multispace cons_statement) (r := u) ?_ h2⟩
    exact preceded_eq_ok.2 ⟨w, t, multispace_iff.2 ⟨rfl, hne, hw, hr.notWhite⟩, h1⟩

/-- C39: when a statement is directly followed by something other than white space, the file fails. -/
theorem C39_adjacent {w s r : Str} {y : Char} (hw : ∀ c ∈ w, White c) (h : Reads s (y :: r)) (hy : ¬ White y) :
    file (w ++ s) = .err := by
  rw [C04_leading hw]
  obtain ⟨x, t, xs, h1, h2⟩ := h.run
  have h3 : multispace0 s = .ok [] s := multispace0_iff.2 ⟨rfl, by simp, h.notWhite⟩
  have h4 : multispace (y :: r) = .err := by
    refine err_of cons_multispace fun v u e => ?_
    obtain ⟨e, hne, hv, -⟩ := multispace_iff.1 e
    cases v with
    | nil => exact hne rfl
    | cons c v =>
      rw [(List.cons.inj e).1] at hy
      exact hy (hv c (by simp))
  have h5 : multispace0 (y :: r) = .ok [] (y :: r) := multispace0_iff.2 ⟨rfl, by simp, next_cons.2 hy⟩
  have h6 : sepNonemptyList multispace0 statement s = .ok (x :: xs) (y :: r) := by
    rw [sepNonemptyList_multispace0]
    exact (sepNonemptyList_iff cons_multispace cons_statement).2 ⟨x, xs, t, rfl, h1, h2, by rw [preceded_apply, h4]; rfl⟩
  unfold file statements
  rw [terminated_apply, delimited_apply, h3, andThen_ok, h6, andThen_ok, h5]
  rfl

/-- `import A⏎infix 3 ++{- a -}`: the comment directly follows the operator. -/
example : file (c!"\n" ++ c!"import A\ninfix 3 ++{- a -}") = .err :=
  C39_adjacent (r := c!"- a -}") (y := '{') (by decide)
    (.more (s := c!"import A\ninfix 3 ++{- a -}") (w := c!"\n") (t := c!"infix 3 ++{- a -}") rfl (by decide) (by simp)
      (.last rfl)) (by decide)
example : file c!"import A\ninfix 3 ++ {- a -}" =
    .ok [.ImportStatement [c!"A"] none none, .InfixDeclaration .N 3 c!"++", .Comment c!" a "] [] := rfl

/-! ### C34 -/

/-- C34: the priority of an accepted infix declaration is the value of its digits, at most `i64::MAX`. -/
theorem C34_value {s r : Str} {x : Statement} (h : infixDeclaration s = .ok x r) :
    ∃ a w1 d w2 n, s = assocText a ++ w1 ++ d ++ w2 ++ n ++ r ∧ x = .InfixDeclaration a (decimal d) n ∧
      SpacesTxt w1 ∧ Digits d ∧ SpacesTxt w2 ∧ (LoName n ∨ Operator n) ∧ decimal d ≤ 9223372036854775807 := by
  obtain ⟨c, rfl, hc⟩ := infixDeclaration_sound h
  have : ∀ {y : Statement}, StmtSrc False y c → (∃ a p n, y = .InfixDeclaration a p n) →
      ∃ a w1 d w2 n, c ++ r = assocText a ++ w1 ++ d ++ w2 ++ n ++ r ∧ y = .InfixDeclaration a (decimal d) n ∧
      SpacesTxt w1 ∧ Digits d ∧ SpacesTxt w2 ∧ (LoName n ∨ Operator n) ∧ decimal d ≤ 9223372036854775807 := by
    rintro y hy ⟨a, p, n, rfl⟩
    cases hy with
    | @infix_ a n w1 d w2 h1 h2 h3 h4 h5 => exact ⟨_, _, d, _, _, rfl, rfl, h1, h2, h4, h5, h3⟩
  refine this hc ?_
  unfold infixDeclaration at h
  simp only [bind_eq_ok, pure_eq_ok] at h
  obtain ⟨a, _, -, _, _, -, p, _, -, _, _, -, n, _, -, rfl, -⟩ := h
  exact ⟨a, p, n, rfl⟩
example := C34_value (s := c!"infixr  012 <> x") rfl

/-- C34: a priority that fits is accepted with its value. -/
theorem C34_fits {a : Assoc} {n : Name} {w1 d w2 r : Str} (h1 : SpacesTxt w1) (hd : Digits d)
    (hv : decimal d ≤ 9223372036854775807) (h2 : SpacesTxt w2) (hn : LoName n ∨ Operator n)
    {sts : List Statement} (hr : Stmts True false sts r) :
    statement (assocText a ++ w1 ++ d ++ w2 ++ n ++ r) = .ok (.InfixDeclaration a (decimal d) n) r :=
  statement_complete (.infix_ h1 hd hv h2 hn) (stmts_follow hr)

/-- C34: a priority that does not fit is rejected. -/
theorem C34_overflow {a : Assoc} {n : Name} {w1 d w2 r : Str} (h1 : SpacesTxt w1) (hd : Digits d)
    (hv : 9223372036854775807 < decimal d) (h2 : SpacesTxt w2) (hn : LoName n ∨ Operator n)
    {sts : List Statement} (hr : Stmts True false sts r) :
    statement (assocText a ++ w1 ++ d ++ w2 ++ n ++ r) = .err := by
  have e := infix_not_fn (a := a) h1 hd h2 hn (stmts_follow hr)
  have nd : NotDecl (assocText a ++ (w1 ++ (d ++ (w2 ++ (n ++ r))))) := by
    refine notDecl_tags fun k hk => ?_
    simp only [List.mem_cons, List.not_mem_nil, or_false] at hk
    rcases hk with rfl | rfl | rfl | rfl | rfl <;> cases a <;> first | rfl | exact tag_cons_ne (by decide)
  have hw1 : Next (fun c => c ≠ 'l' ∧ c ≠ 'r') (w1 ++ (d ++ (w2 ++ (n ++ r)))) := by
    obtain ⟨h3, h4⟩ := h1
    cases w1 with
    | nil => exact absurd rfl h3
    | cons x w => obtain rfl := h4 x (by simp); exact next_cons.2 (by decide)
  have hdig : Next (fun c => ¬ Digit c) (w2 ++ (n ++ r)) := by
    obtain ⟨h3, h4⟩ := h2
    cases w2 with
    | nil => exact absurd rfl h3
    | cons x w => obtain rfl := h4 x (by simp); exact next_cons.2 (by decide)
  have hi : infixDeclaration (assocText a ++ (w1 ++ (d ++ (w2 ++ (n ++ r))))) = .err := by
    refine err_of cons_infixDeclaration fun v u e => ?_
    unfold infixDeclaration at e
    simp only [bind_eq_ok] at e
    obtain ⟨a', s1, k1, _, s2, k2, p, s3, k3, -⟩ := e
    obtain ⟨rfl, rfl⟩ := ok_inj (assoc_iff.2 ⟨rfl, fun _ => hw1⟩) k1
    obtain ⟨-, rfl⟩ := ok_inj (spaces_ok h1 (digits_notSpace hd)) k2
    obtain ⟨d', k3, k4⟩ := mapRes_eq_ok.1 k3
    obtain ⟨rfl, -⟩ := ok_inj (digit_iff.2 ⟨rfl, hd, hdig⟩) k3
    exact absurd (parseI64_iff.1 k4).2 (Nat.not_le.2 hv)
  have hc : comment (assocText a ++ (w1 ++ (d ++ (w2 ++ (n ++ r))))) = .err := by
    cases a <;> rfl
  simp only [List.append_assoc]
  rw [nd.other e, alt_apply, hi, orElse_err, hc]

/-- C34: the value is that of the decimal number: appending a digit, and leading zeros. -/
theorem C34_digit (d : Str) (c : Char) : decimal (d ++ [c]) = 10 * decimal d + (c.toNat - 48) := by
  rw [decimal_append]
  simp only [List.length_singleton, Nat.pow_one, decimal, List.length_nil, Nat.pow_zero, Nat.mul_one, Nat.add_zero]
  omega
theorem C34_zeros (k : Nat) (d : Str) : decimal (List.replicate k '0' ++ d) = decimal d := by
  induction k with
  | zero => rfl
  | succ k ih =>
    rw [List.replicate_succ, List.cons_append, decimal, ih]
    simp

theorem stmts_nil : Stmts True false [] [] := .last (by simp [Whites])

example : statement (c!"infixl" ++ c!" " ++ c!"007" ++ c!" " ++ c!"|>" ++ []) = .ok (.InfixDeclaration .L 7 c!"|>") [] :=
  C34_fits (a := .L) (d := c!"007") spacesTxt_space ⟨by simp, by decide⟩ (by decide) spacesTxt_space
    (.inr ⟨by simp, by decide, by decide⟩) stmts_nil
example : statement (c!"infix" ++ c!" " ++ c!"9223372036854775808" ++ c!" " ++ c!"f" ++ []) = .err :=
  C34_overflow (a := .N) (d := c!"9223372036854775808") spacesTxt_space ⟨by simp, by decide⟩ (by decide) spacesTxt_space
    (.inl ex_f) stmts_nil

/-! ### C36 -/

/-- C36: `(..)` is `AllExport`. -/
theorem C36_all {g1 g2 : Str} (h1 : OptGapTxt 0 .GTE g1) (h2 : OptGapTxt 0 .GTE g2) (r : Str) :
    exports (c!"(" ++ g1 ++ c!".." ++ g2 ++ c!")" ++ r) = .ok .AllExport r := exports_complete (.all h1 h2) r
example : exports c!"( ..)\nx" = .ok .AllExport c!"\nx" :=
  C36_all (g1 := c!" ") (g2 := []) (.inr ⟨_, gapTxt_space 0 .GTE⟩) (.inl rfl) c!"\nx"

/-- One more element of an export list: what stands around the comma, its text and its meaning. -/
structure Exported where
  before : Str
  after : Str
  text : Str
  item : ExportSet
  beforeOk : OptSpaceNl before
  afterOk : OptSpaceNl after
  textOk : ExportText item text

theorem exported_items (es : List Exported) :
    ExportItems (es.map (·.item)) (es.flatMap fun e => e.before ++ c!"," ++ e.after ++ e.text) := by
  induction es with
  | nil => exact .nil
  | cons e es ih => exact .cons e.beforeOk e.afterOk e.textOk ih

/-- C36: a list of exports gives exactly the listed ones in order. -/
theorem C36_order {g1 g2 c : Str} {e : ExportSet} (h1 : OptGapTxt 0 .GTE g1) (h2 : OptGapTxt 0 .GTE g2)
    (h : ExportText e c) (es : List Exported) (r : Str) :
    exports (c!"(" ++ g1 ++ c ++ (es.flatMap fun e => e.before ++ c!"," ++ e.after ++ e.text) ++ g2 ++ c!")" ++ r) =
      .ok (.SubsetExport (e :: es.map (·.item))) r :=
  exports_complete (.some h1 h (exported_items es) h2) r

/-- C36: nothing else is accepted. -/
theorem C36_only {s r : Str} {e : ExportSet} (h : exports s = .ok e r) : ∃ c, s = c ++ r ∧ ExportsText e c :=
  exports_sound h
example := C36_only (s := c!"(f, T(A, B), (+)) x") rfl

example (r : Str) : exports (c!"(" ++ c!" " ++ c!"f" ++ c!"\n , (+),A(A, A)" ++ [] ++ c!")" ++ r) = .ok (.SubsetExport
    [.FunctionExport c!"f", .FunctionExport c!"+",
     .TypeExport c!"A" (some (.SubsetExport [.FunctionExport c!"A", .FunctionExport c!"A"]))]) r :=
  C36_order (c := c!"f") (.inr ⟨_, gapTxt_space 0 .GTE⟩) (.inl rfl) (.function (.lo ex_f))
    [⟨c!"\n ", c!" ", c!"(+)", .FunctionExport c!"+", by simp [OptSpaceNl], by simp [OptSpaceNl],
        .function (.op ⟨by simp, by decide, by decide⟩)⟩,
     ⟨[], [], c!"A(A, A)", _, by simp [OptSpaceNl], by simp [OptSpaceNl],
        .type_ (c := c!"(A, A)") ex_A (.some (ns := [c!"A", c!"A"]) (by simp) (by simp [ex_A]))⟩] r
/-- Inside the parentheses of a type a comma must be followed by exactly one space. -/
example : exports c!"(A(B,C))" = .err := rfl

/-! ### C35 -/

/-- C35: a signature is attached only to a definition on the very next line, at the same indentation. -/
theorem C35_next_line {ind : Nat} {s r : Str} {sg : FunctionSignature} {d : FunctionDefinition}
    (h : function ind s = .ok (.mk (some sg) d) r) :
    ∃ i m w g k c1 c, s = m ++ w ++ c!":" ++ g ++ c1 ++ '\n' :: (sp k ++ c) ++ r ∧ FnName sg.name m ∧ SpacesTxt w ∧
      GapTxt ind .GT i g ∧ TySrc i (.ann sg.type_) c1 ∧ k % 4294967296 = ind ∧ Src False ind (.defn d) c := by
  obtain ⟨c, rfl, hc⟩ := functionF_sound eSound_expression h
  cases hc with
  | fnSig h1 h2 h3 h4 h5 h6 => exact ⟨_, _, _, _, _, _, _, rfl, h1, h2, h3, h4, h5, h6⟩
example := C35_next_line (ind := 0) (s := c!"f : Int -> a\nf x =\n  g x \"s\"\n\nh = 1") rfl

/-- C35: the names of signature and definition are independent. -/
theorem C35_names_free {ind i k : Nat} {n : Name} {t : Ty} {m w g c1 c r : Str} {d : FunctionDefinition}
    (hn : FnName n m) (hw : SpacesTxt w) (hg : GapTxt ind .GT i g) (ht : TySrc i (.ann t) c1) (hk : k % 4294967296 = ind)
    (hd : Src True ind (.defn d) c) (hr : Stop ind r) :
    function ind (m ++ w ++ c!":" ++ g ++ c1 ++ '\n' :: (sp k ++ c) ++ r) = .ok (.mk (some ⟨n, t⟩) d) r :=
  function_complete (.fnSig hn hw hg ht hk hd) hr

/-- C35: a signature that is not followed by a definition is rejected. -/
theorem C35_alone {ind i : Nat} {n : Name} {t : Ty} {m w g c1 r : Str}
    (hn : FnName n m) (hw : SpacesTxt w) (hg : GapTxt ind .GT i g) (ht : TySrc i (.ann t) c1) (hr : TyStop i r)
    (h : ∀ k u, r = '\n' :: (sp k ++ u) → k % 4294967296 = ind → Next (· ≠ ' ') u →
      Next (fun c => ¬ Lower c ∧ c ≠ '_' ∧ c ≠ '(') u) :
    function ind (m ++ w ++ c!":" ++ g ++ c1 ++ r) = .err := by
  simp only [List.append_assoc, List.cons_append, List.nil_append]
  have hname : functionNameOrOp (m ++ (w ++ ':' :: (g ++ (c1 ++ r)))) = .ok n (w ++ ':' :: (g ++ (c1 ++ r))) :=
    functionNameOrOp_ok hn (Spec.TermStop.ident (termStop_spaces hw))
  have hsp : spaces (w ++ ':' :: (g ++ (c1 ++ r))) = .ok w (':' :: (g ++ (c1 ++ r))) :=
    spaces_ok hw (next_cons.2 (by decide))
  refine err_of (fun k => cons_function k ind) fun f z e => ?_
  unfold function functionF at e
  simp only [bind_eq_ok] at e
  obtain ⟨o, s1, k1, df, s2, k2, -⟩ := e
  unfold functionDefinitionF at k2
  simp only [bind_eq_ok] at k2
  obtain ⟨_, t1, l1, as, t2, l2, _, t3, l3, _, t4, l4, -⟩ := k2
  rcases opt_eq_ok.1 k1 with ⟨sg, k3, -⟩ | ⟨-, -, rfl⟩
  · obtain ⟨u1, _, k4, k5⟩ := terminated_eq_ok.1 k3
    have hsig : functionSignature ind (m ++ (w ++ ':' :: (g ++ (c1 ++ r)))) = .ok ⟨n, t⟩ r := by
      unfold functionSignature
      simp only [bind_eq_ok, pure_eq_ok]
      exact ⟨_, _, hname, _, _, hsp, _, _, char_cons _ _, _, _, hg.gap (ty_head_noGap ht trivial), _, _,
        typeAnnotation_complete ht hr, rfl, rfl⟩
    obtain ⟨-, rfl⟩ := ok_inj hsig k4
    obtain ⟨-, k, e, hk, hu⟩ := newLineAndSameIndent_iff.1 k5
    have := h k s1 e hk hu
    have : functionNameOrOp s1 = .err := by
      cases s1 with
      | nil => rfl
      | cons x s1 =>
        obtain ⟨h1, h2, h3⟩ := next_cons.1 this
        unfold functionNameOrOp
        rw [alt_apply, loName_err_head h1 h2, delimited_apply, char_cons_ne _ h3]
        rfl
    rw [this] at l1
    cases l1
  · obtain ⟨-, rfl⟩ := ok_inj hname l1
    have hend : preceded spaces (termF expression ind) (w ++ ':' :: (g ++ (c1 ++ r))) = .err := by
      rw [preceded_apply, hsp, andThen_ok]
      exact termF_err_head (by decide)
    have hm := many0_ok_of_run (.nil _) hend
    obtain ⟨-, rfl⟩ := ok_inj hm l2
    obtain ⟨-, rfl⟩ := ok_inj hsp l3
    rw [char_cons_ne _ (by decide)] at l4
    cases l4

/-- C35: a file that starts with a signature without definition is rejected. -/
theorem C35_file {i : Nat} {n : Name} {t : Ty} {w0 m w g c1 r : Str} (hw0 : ∀ c ∈ w0, White c)
    (hn : FnName n m) (hw : SpacesTxt w) (hg : GapTxt 0 .GT i g) (ht : TySrc i (.ann t) c1) (hr : TyStop i r)
    (h : ∀ k u, r = '\n' :: (sp k ++ u) → k % 4294967296 = 0 → Next (· ≠ ' ') u →
      Next (fun c => ¬ Lower c ∧ c ≠ '_' ∧ c ≠ '(') u) :
    file (w0 ++ (m ++ w ++ c!":" ++ g ++ c1 ++ r)) = .err := by
  have hf := C35_alone hn hw hg ht hr h
  simp only [List.append_assoc, List.cons_append, List.nil_append] at hf ⊢
  have hte : Next (fun c => ¬ IdentChar c) (w ++ ':' :: (g ++ (c1 ++ r))) := Spec.TermStop.ident (termStop_spaces hw)
  have hsp : spaces (w ++ ':' :: (g ++ (c1 ++ r))) = .ok w (':' :: (g ++ (c1 ++ r))) :=
    spaces_ok hw (next_cons.2 (by decide))
  have hst : statement (m ++ (w ++ ':' :: (g ++ (c1 ++ r)))) = .err := by
    have nd : NotDecl (m ++ (w ++ ':' :: (g ++ (c1 ++ r)))) := by
      cases hn with
      | op ho => exact notDecl_head (by decide)
      | lo hl =>
        have key : ∀ k ∈ keywords, ∀ v u, tag k (n ++ (w ++ ':' :: (g ++ (c1 ++ r)))) = .ok v u → NoGap u :=
          fun k hk v u h => keyword_name hk hl hte h
        refine ⟨portModule_err fun v u k1 j x k2 => (noGap_gap (key _ (by decide) _ _ k1) k2).elim,
          effect_not_module hl hte fun j u k1 v x k2 => ?_, module_err (key _ (by decide)), import_err (key _ (by decide)),
          typeAlias_err (key _ (by decide)), typeDecl_err (key _ (by decide)), portType_err (key _ (by decide)),
          port_err (key _ (by decide))⟩
        have := (spacesTxt_gap hw 0 .GT).gap (r := ':' :: (g ++ (c1 ++ r))) (noGap_of_ne (by decide))
        obtain ⟨-, rfl⟩ := ok_inj this k1
        rw [tag_cons_ne (by decide)] at k2
        cases k2
    have hi : infixDeclaration (m ++ (w ++ ':' :: (g ++ (c1 ++ r)))) = .err := by
      cases hn with
      | op ho => exact infix_err_head (by decide)
      | lo hl =>
        refine err_of cons_infixDeclaration fun v u e => ?_
        unfold infixDeclaration at e
        simp only [bind_eq_ok] at e
        obtain ⟨a, s1, k1, _, s2, k2, _, s3, k3, -⟩ := e
        rcases word_cases (loName_ident (assoc_loName a)) (loName_ident hl) hte (assoc_iff.1 k1).1 with
          ⟨-, rfl⟩ | ⟨x, y, rfl, hx⟩
        · obtain ⟨-, rfl⟩ := ok_inj hsp k2
          obtain ⟨d, k4, -⟩ := mapRes_eq_ok.1 k3
          obtain ⟨e, ⟨hne, hd⟩, -⟩ := digit_iff.1 k4
          cases d with
          | nil => exact hne rfl
          | cons x d =>
            have := hd x (by simp)
            rw [← (List.cons.inj e).1] at this
            revert this; decide
        · exact noGap_spaces (ident_noGap hx) k2
    have hc : comment (m ++ (w ++ ':' :: (g ++ (c1 ++ r)))) = .err := by
      refine err_of cons_comment fun v u e => ?_
      have hm : ∀ x y, m ++ (w ++ ':' :: (g ++ (c1 ++ r))) = x :: y → x ≠ '-' ∧ x ≠ '{' := by
        intro x y e
        cases hn with
        | op => cases (List.cons.inj e).1; decide
        | lo hl =>
          obtain ⟨z, t', rfl, hz⟩ := loName_head hl
          rw [← (List.cons.inj e).1]
          constructor <;> rintro rfl <;> revert hz <;> decide
      rcases alt_eq_ok.1 e with e | ⟨-, e⟩
      · obtain ⟨_, -, e, -⟩ := lineCommentStatement_iff.1 e
        exact (hm _ _ e).1 rfl
      · obtain ⟨_, -, e, -⟩ := multiLineComment_iff'.1 e
        exact (hm _ _ (by rw [e]; rfl)).2 rfl
    rw [nd.other hf, alt_apply, hi, orElse_err, hc]
  rw [C04_leading hw0]
  have h3 : multispace0 (m ++ (w ++ ':' :: (g ++ (c1 ++ r)))) = .ok [] (m ++ (w ++ ':' :: (g ++ (c1 ++ r)))) := by
    refine multispace0_iff.2 ⟨rfl, by simp, ?_⟩
    cases hn with
    | op => exact next_cons.2 (by decide)
    | lo hl =>
      obtain ⟨z, t', rfl, hz⟩ := loName_head hl
      refine next_cons.2 ?_
      rintro (rfl | rfl | rfl | rfl) <;> revert hz <;> decide
  unfold file statements
  rw [terminated_apply, delimited_apply, h3, andThen_ok]
  unfold sepNonemptyList
  rw [hst]
  rfl

theorem ex_int : TySrc 0 (.ann (.TypeConstructor [c!"A"] [])) c!"A" :=
  .annTy (.con (ns := [c!"A"]) (cs := []) (by simp) (by simp only [List.mem_singleton, forall_eq]; exact ex_A) .args0)

/-- The signature is for `f`, the definition for `y`. -/
example : function 0 (c!"f" ++ c!" " ++ c!":" ++ c!" " ++ c!"A" ++ '\n' :: (sp 0 ++ c!"y = x") ++ []) =
    .ok (.mk (some ⟨c!"f", .TypeConstructor [c!"A"] []⟩) (.mk c!"y" [] (.Variable [c!"x"]))) [] :=
  C35_names_free (.lo ex_f) spacesTxt_space (gapTxt_space 0 .GT) ex_int rfl
    (.defn (m := c!"y") (cs := []) (w := c!" ") (g := c!" ") (d := c!"x") (.lo ex_y) .fargs0 spacesTxt_space (gapTxt_space 0 .GT)
      (ex_term (ex_var 0 ex_x))) (stop_nil 0)
/-- A blank line or a comment between signature and definition is not allowed. -/
example : function 0 (c!"f" ++ c!" " ++ c!":" ++ c!" " ++ c!"A" ++ c!"\n\nf = x") = .err :=
  C35_alone (.lo ex_f) spacesTxt_space (gapTxt_space 0 .GT) ex_int
    ⟨next_cons.2 (by decide), .inr ⟨[⟨0, none⟩, ⟨0, none⟩], ⟨0, none⟩, c!"f = x",
      ⟨rfl, by decide, by simp [Line.ok], by simp [Line.ok], .inl ⟨rfl, next_cons.2 (by decide), by simp⟩⟩, by simp,
      .inr ⟨by simp, by decide⟩⟩⟩
    (by
      intro k u e _ _
      have : sp k ++ u = c!"\nf = x" := (List.cons.inj e).2.symm
      cases k with
      | zero => rw [show sp 0 = [] from rfl, List.nil_append] at this; subst this; exact next_cons.2 (by decide)
      | succ k => cases (List.cons.inj this).1)
example : file (c!"\n" ++ (c!"f" ++ c!" " ++ c!":" ++ c!" " ++ c!"A" ++ [])) = .err :=
  C35_file (by decide) (.lo ex_f) spacesTxt_space (gapTxt_space 0 .GT) ex_int ⟨next_nil _, .inl noGap_nil⟩ (by simp)
example : file c!"f : A\n-- comment\nf = x" = .err := rfl


end ElmParser
