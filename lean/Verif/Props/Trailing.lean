import Verif.Proofs.Trail
import Verif.Props.Statements
import Verif.Props.Binaries

/-! Property C42: a newline and white space at the end of the text are irrelevant. -/
namespace ElmParser
open Spec

/-! ### C42 -/

/-- C42: a file and the same file followed by a newline and any white space have the same result, whether it is
accepted or rejected.  The newline comes first, so a line comment at the end of the file is not
lengthened. -/
theorem C42_file (s : Str) {w : Str} (hw : ∀ c ∈ w, White c) : file (s ++ '\n' :: w) = file s :=
  file_nl ⟨w, rfl, hw⟩ s

/-- An accepted file: the last definition is not continued by the blank lines after it. -/
example : file (c!"f x =\n  case x of\n    1 -> 2" ++ c!"\n\n    \t\r\n ") = file c!"f x =\n  case x of\n    1 -> 2" :=
  C42_file _ (by decide)
example : ∃ sts, file c!"f x =\n  case x of\n    1 -> 2" = .ok sts [] := ⟨_, rfl⟩
/-- A rejected file: a signature without a definition, although a newline is what should follow it. -/
example : file (c!"f : Int" ++ c!"\n") = file c!"f : Int" := C42_file _ (by decide)
example : file c!"f : Int" = .err := rfl
/-- A comment at the end of the file keeps its text. -/
example : file (c!"-- a" ++ c!"\n ") = .ok [.Comment c!" a"] [] := (C42_file c!"-- a" (by decide)).trans rfl
/-- Without the newline the comment would be longer. -/
example : file (c!"-- a" ++ c!" ") ≠ file c!"-- a" := by
  have h1 : file (c!"-- a" ++ c!" ") = .ok [.Comment c!" a "] [] := rfl
  have h2 : file c!"-- a" = .ok [.Comment c!" a"] [] := rfl
  rw [h1, h2]
  simp

/-- C42: a statement, a function, a term, an expression, a type and a type annotation have the same tree
and the same unread text, and are rejected together, whether or not the text ends with a newline and white space. -/
theorem C42_statement (s : Str) {w : Str} (hw : ∀ c ∈ w, White c) :
    (∃ v r, statement s = .ok v r ∧ statement (s ++ '\n' :: w) = .ok v (r ++ '\n' :: w)) ∨
    (statement s = .err ∧ statement (s ++ '\n' :: w) = .err) :=
  (s_statement ⟨w, rfl, hw⟩).cases (fun k => (cons_statement k).good) s
example := C42_statement c!"import A.B as C exposing (f, T(..), (+))\n\nx = 1" (w := c!"  \n\t") (by decide)
@[inherit_doc C42_statement]
theorem C42_expression (ind : Nat) (s : Str) {w : Str} (hw : ∀ c ∈ w, White c) :
    (∃ v r, expression ind s = .ok v r ∧ expression ind (s ++ '\n' :: w) = .ok v (r ++ '\n' :: w)) ∨
    (expression ind s = .err ∧ expression ind (s ++ '\n' :: w) = .err) :=
  ((exS_expression ⟨w, rfl, hw⟩).s ind).cases (fun k => (cons_expression k ind).good) s
example := C42_expression 0 c!"case f x of\n  A b -> [b, 1]\n  _ -> let y = 2 in (y + b) z" (w := c!"  \n\t") (by decide)
@[inherit_doc C42_statement]
theorem C42_term (ind : Nat) (s : Str) {w : Str} (hw : ∀ c ∈ w, White c) :
    (∃ v r, term ind s = .ok v r ∧ term ind (s ++ '\n' :: w) = .ok v (r ++ '\n' :: w)) ∨
    (term ind s = .err ∧ term ind (s ++ '\n' :: w) = .err) :=
  (s_termF ⟨w, rfl, hw⟩ (exS_expression ⟨w, rfl, hw⟩) ind).cases (fun k => (cons_term k ind).good) s
example := C42_term 0 c!"{ a = f x, b = (1, c) } y" (w := c!"  \n\t") (by decide)
@[inherit_doc C42_statement]
theorem C42_function (ind : Nat) (s : Str) {w : Str} (hw : ∀ c ∈ w, White c) :
    (∃ v r, function ind s = .ok v r ∧ function ind (s ++ '\n' :: w) = .ok v (r ++ '\n' :: w)) ∨
    (function ind s = .err ∧ function ind (s ++ '\n' :: w) = .err) :=
  (s_functionF ⟨w, rfl, hw⟩ (exS_expression ⟨w, rfl, hw⟩) ind).cases (fun k => (cons_function k ind).good) s
example := C42_function 0 c!"f : Int -> a\nf x =\n  g x \"s\"\n\nh = 1" (w := c!"  \n\t") (by decide)
@[inherit_doc C42_statement]
theorem C42_type (ind : Nat) (s : Str) {w : Str} (hw : ∀ c ∈ w, White c) :
    (∃ v r, type_ ind s = .ok v r ∧ type_ ind (s ++ '\n' :: w) = .ok v (r ++ '\n' :: w)) ∨
    (type_ ind s = .err ∧ type_ ind (s ++ '\n' :: w) = .err) :=
  ((tyS_tyRec ⟨w, rfl, hw⟩).ty ind).cases (fun k => (cons_type_ k ind).good) s
example := C42_type 0 c!"Dict (Maybe a) { x : Int } -> c" (w := c!"  \n\t") (by decide)
@[inherit_doc C42_statement]
theorem C42_typeAnnotation (ind : Nat) (s : Str) {w : Str} (hw : ∀ c ∈ w, White c) :
    (∃ v r, typeAnnotation ind s = .ok v r ∧ typeAnnotation ind (s ++ '\n' :: w) = .ok v (r ++ '\n' :: w)) ∨
    (typeAnnotation ind s = .err ∧ typeAnnotation ind (s ++ '\n' :: w) = .err) :=
  ((tyS_tyRec ⟨w, rfl, hw⟩).ann ind).cases (fun k => (cons_typeAnnotation k ind).good) s
example := C42_typeAnnotation 0 c!"(a -> List b) -> { x : Int } -> c\n=" (w := c!"  \n\t") (by decide)

/-- An expression with unread text, and one that is rejected. -/
example : expression 0 c!"f [1, 2] , x" =
    .ok (.Application (.Variable [c!"f"]) (.List [.Integer c!"1", .Integer c!"2"])) c!" , x" := rfl
example : expression 0 (c!"f [1, 2] , x" ++ c!"\n  ") =
    .ok (.Application (.Variable [c!"f"]) (.List [.Integer c!"1", .Integer c!"2"])) (c!" , x" ++ c!"\n  ") := rfl
example : expression 0 c!"if x then" = .err ∧ expression 0 (c!"if x then" ++ c!"\n  ") = .err := ⟨rfl, rfl⟩

/-- Every file reads the same, except that some end with an additional newline and white space. -/
def SameUpToEnd (read read' : Str → Read) : Prop :=
  ∀ f, read' f = read f ∨
    ∃ s w, (∀ c ∈ w, White c) ∧ read f = .contents s ∧ read' f = .contents (s ++ '\n' :: w)

/-- The second text is the first followed by a newline and white space. -/
def NewlineAfter (r r' : Str) : Prop := ∃ w, (∀ c ∈ w, White c) ∧ r' = r ++ '\n' :: w

/-- C42: the error of a rejected file shows the same text, with the newline and the white space at its end. -/
theorem C42_failure {s w : Str} (hw : ∀ c ∈ w, White c) (hs : file s = .err) :
    failure (s ++ '\n' :: w) = match failure s with
      | .eof r => .eof (r ++ '\n' :: w)
      | .other => .other := by
  unfold failure
  rcases statements_nl ⟨w, rfl, hw⟩ s with ⟨h1, h2⟩ | ⟨v, h1, h2⟩ | ⟨v, c, r, h1, h2⟩
  · rw [h1, h2]
  · have : file s = .ok v [] := by
      show (statements s).andThen _ = _
      rw [h1]; rfl
    rw [this] at hs; cases hs
  · rw [h1, h2]
example := C42_failure (s := c!"x = 1\n)") (w := c!"  \n") (by decide) rfl

theorem sameMsgs_failure {s w : Str} (hw : ∀ c ∈ w, White c) (hs : file s = .err) :
    SameMsgs NewlineAfter [.error (failure s)] [.error (failure (s ++ '\n' :: w))] := by
  rw [C42_failure hw hs]
  cases failure s with
  | eof r => exact .rest ⟨w, hw, rfl⟩ .nil
  | other => exact .same .nil

theorem dumpFile_upToEnd {read read' : Str → Read} (h : SameUpToEnd read read') (f : Str) (quiet : Bool) :
    SameFile NewlineAfter (dumpFile read f quiet) (dumpFile read' f quiet) := by
  unfold dumpFile
  rcases h f with h | ⟨s, w, hw, h, h'⟩
  · rw [h]; exact .refl _
  · rw [h, h']
    simp only [C42_file s hw]
    cases hs : file s with
    | ok v r => exact .refl _
    | err =>
      cases quiet with
      | true => exact .refl _
      | false => exact sameMsgs_failure hw hs
    | panic => exact .refl _
    | div => exact .refl _

/-- C42: `check` prints the same and ends the same way, except that the unread text shown with an error ends with
the newline and the white space. -/
theorem C42_check {read read' : Str → Read} (h : SameUpToEnd read read') (args : List Str) :
    (checkMain read args).SameBut NewlineAfter (checkMain read' args) := by
  unfold checkMain
  split
  · exact .refl _
  · cases args[1]? with
    | none => exact .refl _
    | some f =>
      simp only
      rcases h f with h | ⟨s, w, hw, h, h'⟩
      · rw [h]; exact .refl _
      · rw [h, h']
        simp only [C42_file s hw]
        cases hs : file s with
        | ok v r => exact .refl _
        | err => exact ⟨sameMsgs_failure hw hs, rfl⟩
        | panic => exact .refl _
        | div => exact .refl _

/-- C42: the same for `dump`, also for a directory. -/
theorem C42_dump {read read' : Str → Read} (h : SameUpToEnd read read') (isDir : Str → Option Bool)
    (walk : Str → List (Option Entry)) (path : Option Str) (quiet : Bool) :
    (dumpMain read isDir walk path quiet).SameBut NewlineAfter (dumpMain read' isDir walk path quiet) :=
  dumpMain_sameBut (fun f => dumpFile_upToEnd h f quiet) isDir walk path

theorem SameMsgs.eq {R : Str → Str → Prop} {ms ms' : List Msg} (h : SameMsgs R ms ms') (hm : ∀ f, .error f ∉ ms) :
    ms = ms' := by
  induction h with
  | nil => rfl
  | same _ ih => rw [ih fun f hf => hm f (List.mem_cons_of_mem _ hf)]
  | rest _ _ _ => exact absurd (List.mem_cons_self) (hm _)

/-- C42: where no error is printed, as by `dump --quiet`, the output is the same. -/
theorem C42_output {read read' : Str → Read} (h : SameUpToEnd read read') (isDir : Str → Option Bool)
    (walk : Str → List (Option Entry)) (path : Option Str) (quiet : Bool)
    (hm : ∀ f, .error f ∉ (dumpMain read isDir walk path quiet).out) :
    dumpMain read' isDir walk path quiet = dumpMain read isDir walk path quiet := by
  have := C42_dump h isDir walk path quiet
  have h1 := this.1.eq hm
  have h2 := this.2
  cases h3 : dumpMain read isDir walk path quiet
  cases h4 : dumpMain read' isDir walk path quiet
  rw [h3, h4] at h1 h2
  cases h1
  cases h2
  rfl

/-- Two files, one of which gets a newline at its end. -/
example : SameUpToEnd (fun f => if f = c!"a.elm" then .contents c!"import A exposing (b)" else .contents c!"x = 1")
    (fun f => if f = c!"a.elm" then .contents c!"import A exposing (b)\n\n" else .contents c!"x = 1") := by
  intro f
  simp only
  split
  · exact .inr ⟨_, c!"\n", by decide, rfl, rfl⟩
  · exact .inl rfl
example : checkMain (fun f => if f = c!"a.elm" then .contents c!"import A exposing (b)\n\n" else .contents c!"x = 1")
    [c!"check", c!"a.elm"] = ⟨[.names [c!"b"]], .code 0⟩ := rfl
/-- An error shows the newline. -/
example : checkMain (fun _ => .contents c!"x = 1\n)\n") [c!"check", c!"a.elm"] = ⟨[.error (.eof c!")\n")], .code 0⟩ ∧
    checkMain (fun _ => .contents c!"x = 1\n)") [c!"check", c!"a.elm"] = ⟨[.error (.eof c!")")], .code 0⟩ := ⟨rfl, rfl⟩
example : dumpDirectory (fun f => if f = c!"a.elm" then .contents c!"import A\n\n" else .contents c!"x = 1") true
    [some ⟨some c!"a.elm", false⟩, some ⟨some c!"b.elm", false⟩] =
    ⟨[.parsed c!"a.elm", .parsed c!"b.elm"], .code 0⟩ := rfl
theorem sameUpToEnd_example : SameUpToEnd (fun _ => .contents c!"x = 1\n)") (fun _ => .contents c!"x = 1\n)\n  \n") :=
  fun _ => .inr ⟨_, c!"  \n", by decide, rfl, rfl⟩
example := C42_check sameUpToEnd_example [c!"check", c!"a.elm"]
example := C42_dump sameUpToEnd_example (fun _ => some false) (fun _ => []) (some c!"a.elm") false
example := C42_output sameUpToEnd_example (fun _ => some false) (fun _ => []) (some c!"a.elm") true (by
  rintro f (_ | ⟨_, h⟩); cases h)

end ElmParser
