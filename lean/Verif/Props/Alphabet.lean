import Verif.Proofs.Alphabet
import Verif.Proofs.StmtSound
import Verif.Props.Binaries
import Verif.Props.Totality

/-! Property C53: the parser does not tell characters apart that the grammar does not mention. -/
namespace ElmParser
open Spec

namespace Al
variable {α β : Type} {R : α → β → Prop}

/-- Of a parser that always returns the simulation leaves two cases. -/
theorem S.cases {p : Parser α} {p' : Parser β} (h : S R p p') (t : ∀ k, Good k p) {s s' : Str} (hs : Alike s s') :
    (∃ v v' r r', p s = .ok v r ∧ p' s' = .ok v' r' ∧ R v v' ∧ Alike r r') ∨ (p s = .err ∧ p' s' = .err) := by
  have h := h s s' hs
  have t := t _ s (Nat.le_refl _)
  revert h t
  generalize p s = x, p' s' = y
  intro h t
  cases h with
  | ok hR ha _ _ => exact .inl ⟨_, _, _, _, rfl, rfl, hR, ha⟩
  | err => exact .inr ⟨rfl, rfl⟩
  | panic => rcases t with t | ⟨_, _, t, _⟩ <;> cases t
  | div => rcases t with t | ⟨_, _, t, _⟩ <;> cases t
end Al

/-! ### C53 -/

/-- C53: let two texts be equal but for characters the grammar does not mention.  Then an expression is read from
both, up to the same place and with the same tree but for such characters in its literals, or from none of them. -/
theorem C53_expression (ind : Nat) {s t : Str} (h : Alike s t) :
    (∃ v w r q, expression ind s = .ok v r ∧ expression ind t = .ok w q ∧ exprBlank v = exprBlank w ∧ Alike r q) ∨
    (expression ind s = .err ∧ expression ind t = .err) :=
  (Al.exOk_expression ind).cases (fun k => (cons_expression k _).good) h
example := C53_expression 0 (s := c!"f \"é\" + x é") (t := c!"f \"`\" + x ;") (by unfold Alike; decide)
@[inherit_doc C53_expression]
theorem C53_term (ind : Nat) {s t : Str} (h : Alike s t) :
    (∃ v w r q, term ind s = .ok v r ∧ term ind t = .ok w q ∧ exprBlank v = exprBlank w ∧ Alike r q) ∨
    (term ind s = .err ∧ term ind t = .err) :=
  (Al.s_term ind).cases (fun k => (cons_term k _).good) h
example := C53_term 0 (s := c!"\"é\"") (t := c!"\"`\"") (by unfold Alike; decide)
@[inherit_doc C53_expression]
theorem C53_function (ind : Nat) {s t : Str} (h : Alike s t) :
    (∃ v w r q, function ind s = .ok v r ∧ function ind t = .ok w q ∧ functionBlank v = functionBlank w ∧ Alike r q) ∨
    (function ind s = .err ∧ function ind t = .err) :=
  (Al.s_function ind).cases (fun k => (cons_function k _).good) h
example := C53_function 0 (s := c!"f x = \"é\" + x é") (t := c!"f x = \"`\" + x ;") (by unfold Alike; decide)
/-- C53: the same for types, which have no literals: the trees are the same. -/
theorem C53_type (ind : Nat) {s t : Str} (h : Alike s t) :
    (∃ v r q, type_ ind s = .ok v r ∧ type_ ind t = .ok v q ∧ Alike r q) ∨ (type_ ind s = .err ∧ type_ ind t = .err) := by
  rcases (Al.tyOk_tyRec.ty ind).cases (fun k => (cons_type_ k _).good) h with ⟨v, _, r, q, h1, h2, rfl, h3⟩ | h
  · exact .inl ⟨v, r, q, h1, h2, h3⟩
  · exact .inr h
example := C53_type 0 (s := c!"List a é") (t := c!"List a ;") (by unfold Alike; decide)
@[inherit_doc C53_type]
theorem C53_typeAnnotation (ind : Nat) {s t : Str} (h : Alike s t) :
    (∃ v r q, typeAnnotation ind s = .ok v r ∧ typeAnnotation ind t = .ok v q ∧ Alike r q) ∨
    (typeAnnotation ind s = .err ∧ typeAnnotation ind t = .err) := by
  rcases (Al.tyOk_tyRec.ann ind).cases (fun k => (cons_typeAnnotation k _).good) h with ⟨v, _, r, q, h1, h2, rfl, h3⟩ | h
  · exact .inl ⟨v, r, q, h1, h2, h3⟩
  · exact .inr h
example := C53_typeAnnotation 0 (s := c!"a -> b é") (t := c!"a -> b ;") (by unfold Alike; decide)
/-- C53: the same for statements; here characters of comments can differ, too. -/
theorem C53_statement {s t : Str} (h : Alike s t) :
    (∃ v w r q, statement s = .ok v r ∧ statement t = .ok w q ∧ statementBlank v = statementBlank w ∧ Alike r q) ∨
    (statement s = .err ∧ statement t = .err) :=
  Al.s_statement.cases (fun k => (cons_statement k).good) h
example := C53_statement (s := c!"f = \"é\" -- é") (t := c!"f = \"`\" -- €") (by unfold Alike; decide)
/-- C53: the same for files. -/
theorem C53_file {s t : Str} (h : Alike s t) :
    (∃ a b, file s = .ok a [] ∧ file t = .ok b [] ∧ a.map statementBlank = b.map statementBlank) ∨
    (file s = .err ∧ file t = .err) := by
  rcases Al.s_file.cases good_file h with ⟨a, b, r, q, h1, h2, h3, -⟩ | h
  · obtain rfl := (file_sound h1).1
    obtain rfl := (file_sound h2).1
    exact .inl ⟨a, b, h1, h2, h3.statements⟩
  · exact .inr h
example := C53_file (s := c!"-- é\nf = \"é\"") (t := c!"-- €\nf = \"`\"") (by unfold Alike; decide)

/-- C53: where a text is rejected, the unread part begins at the same place. -/
theorem C53_failure {s t r : Str} (h : Alike s t) (hf : failure s = .eof r) : ∃ q, failure t = .eof q ∧ Alike r q := by
  have h := Al.s_statements s t h
  unfold failure at *
  revert h hf
  generalize statements s = x, statements t = y
  intro hf h
  cases h with
  | ok _ a _ _ => cases hf; exact ⟨_, rfl, a⟩
  | err => cases hf
  | panic => cases hf
  | div => cases hf
example := C53_failure (s := c!"x = 1\n§ \"ö\"") (t := c!"x = 1\n; \"`\"") (r := c!"§ \"ö\"") (by unfold Alike; decide) rfl

/-- The names a file imports do not depend on literals and comments. -/
theorem importedNames_blank {a b : List Statement} (h : a.map statementBlank = b.map statementBlank) :
    getImportedNames a = getImportedNames b := by
  have key : ∀ l, getImportedNames (l.map statementBlank) = getImportedNames l := by
    intro l
    unfold getImportedNames
    induction l with
    | nil => rfl
    | cons x l ih =>
      rw [List.map_cons, List.flatMap_cons, List.flatMap_cons, ih]
      congr 1
      cases x <;> rfl
  rw [← key a, ← key b, h]

/-- C53: `check` prints the same names for both files. -/
theorem C53_check (f : Str) (args : List Str) {read read' : Str → Read} {s t : Str} (hs : read f = .contents s)
    (ht : read' f = .contents t) (h : Alike s t) (prog : Str) (ns : List Name)
    (hc : checkMain read (prog :: f :: args) = ⟨[.names ns], .code 0⟩) :
    checkMain read' (prog :: f :: args) = ⟨[.names ns], .code 0⟩ := by
  have e : ∀ {r : Str → Read} {u : Str}, r f = .contents u → checkMain r (prog :: f :: args) =
      match file u with
      | .ok ast _ => ⟨[.names (getImportedNames ast)], .code 0⟩
      | .err => ⟨[.error (failure u)], .code 0⟩
      | .panic => ⟨[], .panicked⟩
      | .div => ⟨[], .diverged⟩ := by
    intro r u hu
    unfold checkMain
    rw [if_neg (by simp)]
    simp only [List.getElem?_cons_succ, List.getElem?_cons_zero, hu]
    cases file u <;> rfl
  rw [e hs] at hc
  rw [e ht]
  rcases C53_file h with ⟨a, b, h1, h2, h3⟩ | ⟨h1, h2⟩
  · rw [h1] at hc
    rw [h2]
    dsimp only at hc ⊢
    rw [← importedNames_blank h3]
    exact hc
  · rw [h1] at hc; cases hc
example := C53_check c!"f" [] (read := fun _ => .contents c!"import A exposing (b)\n-- ö")
  (read' := fun _ => .contents c!"import A exposing (b)\n-- `") rfl rfl (by unfold Alike; decide) c!"check" [c!"b"] rfl

/-! Cases. -/

/-- Texts alike: letters outside ASCII, a backquote, a control character. -/
example : Alike c!"f x = \"héllo\" -- ünd" c!"f x = \"h`llo\" -- \u0007nd" := by unfold Alike; decide
/-- Not alike: a character of the grammar. -/
example : ¬ Alike c!"f x = \"héllo\"" c!"f x = \"hello\"" := by unfold Alike; decide
example : expression 0 c!"f \"h`llo\" 'é' + é" =
    .ok (.Application (.Application (.Variable [c!"f"]) (.String c!"h`llo")) (.Character 'é')) c!" + é" := by rfl
example : expression 0 c!"f \"h€llo\" ';' + ;" =
    .ok (.Application (.Application (.Variable [c!"f"]) (.String c!"h€llo")) (.Character ';')) c!" + ;" := by rfl
example : Alike c!"f \"h`llo\" 'é' + é" c!"f \"h€llo\" ';' + ;" := by unfold Alike; decide
/-- Rejected alike. -/
example : file c!"é = 1" = .err ∧ file c!"; = 1" = .err := ⟨by rfl, by rfl⟩
/-- A character literal in hexadecimal is read as a character that is not mentioned, although all characters of the
text are. -/
example : expression 0 c!"'\\xE9'" = .ok (.Character 'é') [] := by rfl
/-- Mentioned characters do matter: a bang for a backquote. -/
example : expression 0 c!"a ! b" ≠ expression 0 c!"a ` b" := by
  have h1 : expression 0 c!"a ! b" = .ok (.BinOp (.Variable [c!"!"]) (.Variable [c!"a"]) (.Variable [c!"b"])) [] := rfl
  have h2 : expression 0 c!"a ` b" = .ok (.Variable [c!"a"]) c!" ` b" := rfl
  rw [h1, h2]; simp
/-- The names imported stay the same. -/
example : checkMain (fun _ => .contents c!"import A exposing (b)\n-- ö\nx = \"ß\"") [c!"check", c!"f"] =
    ⟨[.names [c!"b"]], .code 0⟩ := by rfl
/-- A file not read to its end. -/
example : failure c!"x = 1\n§ \"ö\"" = .eof c!"§ \"ö\"" ∧ failure c!"x = 1\n; \"`\"" = .eof c!"; \"`\"" :=
  ⟨by rfl, by rfl⟩

end ElmParser
