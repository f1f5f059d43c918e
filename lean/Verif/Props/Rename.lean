import Verif.Proofs.RenameParsers
import Verif.Proofs.RenameTree
import Verif.Proofs.StmtSound
import Verif.Props.Binaries
import Verif.Props.Totality

/-! Property C56: names and numbers are opaque, the parser does not look into them. -/
namespace ElmParser
open Spec Spec.Rename

namespace Rn
variable {α : Type} {R : α → α → Prop} {W : Str → Str → Prop} {st : Prop}

theorem good_undef {p : Parser α} (t : ∀ k, Good k p) (s : Str) : ¬ Undef (p s) := by
  rcases t _ s (Nat.le_refl _) with t | ⟨_, _, t, _⟩ <;> rw [t] <;> rintro (h | h) <;> cases h

theorem stuck_ends {s : Str} : Stuck s → ¬ Ends s := by
  rintro ⟨c, r, rfl, h⟩ he
  exact next_cons.1 he h

/-- Of a parser that always returns the simulation leaves these cases. -/
theorem S.cases {p : Parser α} (h : S W st R p p) (t : ∀ k, Good k p) {s s' : Str} (hs : Text W 0 s s') :
    (∃ v v' r r', p s = .ok v r ∧ p s' = .ok v' r' ∧ ((R v v' ∧ Text W 0 r r') ∨ (st ∧ ¬ Ends r ∧ ¬ Ends r'))) ∨
    (p s = .err ∧ p s' = .err) := by
  have h := h s s' hs
  have t1 := good_undef t s
  have t2 := good_undef t s'
  revert h t1 t2
  generalize p s = x, p s' = y
  intro h t1 t2
  cases h with
  | ok hR ha _ _ _ => exact .inl ⟨_, _, _, _, rfl, rfl, .inl ⟨hR, ha⟩⟩
  | stuck hst a b _ _ _ _ => exact .inl ⟨_, _, _, _, rfl, rfl, .inr ⟨hst, stuck_ends a, stuck_ends b⟩⟩
  | err => exact .inr ⟨rfl, rfl⟩
  | undefL h => exact absurd h t1
  | undefR h => exact absurd h t2
end Rn

section
variable {W : Str → Str → Prop} (hW : Renaming W)
include hW

/-! ### C56 -/

/-- C56: let `t` be the text `s` with names replaced by names of the same kind and numbers by numbers (`Renaming`, `Text`).
Then either both are accepted, with trees that differ in these names and numbers only, or both are rejected. -/
theorem C56_file {s t : Str} (h : Text W 0 s t) :
    (∃ xs ys, file s = .ok xs [] ∧ file t = .ok ys [] ∧ Each (StmtRel W) xs ys) ∨ (file s = .err ∧ file t = .err) := by
  rcases (Rn.s_file hW).cases good_file h with ⟨a, b, r, q, h1, h2, h3⟩ | h
  · obtain rfl := (file_sound h1).1
    obtain rfl := (file_sound h2).1
    rcases h3 with ⟨h3, -⟩ | ⟨h3, -⟩
    · exact .inl ⟨a, b, h1, h2, h3⟩
    · cases h3
  · exact .inr h

/-- C56: the same for an expression.  If one of the texts is not read up to the end of a word then neither is the
other. -/
theorem C56_expression (ind : Nat) {s t : Str} (h : Text W 0 s t) :
    (∃ v w r q, expression ind s = .ok v r ∧ expression ind t = .ok w q ∧
      ((ExprRel W v w ∧ Text W 0 r q) ∨ (¬ Ends r ∧ ¬ Ends q))) ∨
    (expression ind s = .err ∧ expression ind t = .err) := by
  simpa using (Rn.exOk_expression hW ind).cases (fun k => (cons_expression k _).good) h
@[inherit_doc C56_expression]
theorem C56_function (ind : Nat) {s t : Str} (h : Text W 0 s t) :
    (∃ v w r q, function ind s = .ok v r ∧ function ind t = .ok w q ∧
      ((FunRel W v w ∧ Text W 0 r q) ∨ (¬ Ends r ∧ ¬ Ends q))) ∨
    (function ind s = .err ∧ function ind t = .err) := by
  simpa using (Rn.s_function hW ind).cases (fun k => (cons_function k _).good) h
@[inherit_doc C56_expression]
theorem C56_type (ind : Nat) {s t : Str} (h : Text W 0 s t) :
    (∃ v w r q, type_ ind s = .ok v r ∧ type_ ind t = .ok w q ∧
      ((TyRel W v w ∧ Text W 0 r q) ∨ (¬ Ends r ∧ ¬ Ends q))) ∨
    (type_ ind s = .err ∧ type_ ind t = .err) := by
  have h := Rn.S.cases (p := type_ ind) ((Rn.tyOk_tyRec hW).ty ind) (fun k => (cons_type_ k _).good) h
  simpa only [true_and] using h
@[inherit_doc C56_expression]
theorem C56_typeAnnotation (ind : Nat) {s t : Str} (h : Text W 0 s t) :
    (∃ v w r q, typeAnnotation ind s = .ok v r ∧ typeAnnotation ind t = .ok w q ∧
      ((TyRel W v w ∧ Text W 0 r q) ∨ (¬ Ends r ∧ ¬ Ends q))) ∨
    (typeAnnotation ind s = .err ∧ typeAnnotation ind t = .err) := by
  have h := Rn.S.cases (p := typeAnnotation ind) ((Rn.tyOk_tyRec hW).ann ind) (fun k => (cons_typeAnnotation k _).good) h
  simpa only [true_and] using h
@[inherit_doc C56_expression]
theorem C56_statement {s t : Str} (h : Text W 0 s t) :
    (∃ v w r q, statement s = .ok v r ∧ statement t = .ok w q ∧
      ((StmtRel W v w ∧ Text W 0 r q) ∨ (¬ Ends r ∧ ¬ Ends q))) ∨
    (statement s = .err ∧ statement t = .err) := by
  simpa using (Rn.s_statement hW).cases (fun k => (cons_statement k).good) h
end

/-- C56: replacing names and numbers in a file by a function `ρ` replaces them in the tree, and nothing else changes.
Different names may be replaced by the same name. -/
theorem C56_rename {ρ : Str → Str} (hρ : Kinds ρ) {s : Str} (h : Text (By ρ) 0 s (renameText ρ s)) :
    (∀ xs, file s = .ok xs [] → file (renameText ρ s) = .ok (xs.map (renameStatement ρ)) []) ∧
    (file s = .err → file (renameText ρ s) = .err) := by
  rcases C56_file (Rn.renaming_by hρ) h with ⟨a, b, h1, h2, h3⟩ | ⟨h1, h2⟩
  · rw [h1, h2, Rn.statements_eq hρ h3]
    exact ⟨fun xs e => by cases e; rfl, nofun⟩
  · rw [h1, h2]
    exact ⟨nofun, fun _ => rfl⟩
/-- C56: this applies to every text without a `'`. -/
theorem C56_quoteFree {ρ : Str → Str} (hρ : Kinds ρ) {s : Str} (hq : '\'' ∉ s) :
    (∀ xs, file s = .ok xs [] → file (renameText ρ s) = .ok (xs.map (renameStatement ρ)) []) ∧
    (file s = .err → file (renameText ρ s) = .err) :=
  C56_rename hρ (Rn.text_rename hρ hq)

mutual
theorem exportImports_rename (ρ : Str → Str) :
    ∀ x, getExportSetImports (renameExport ρ x) = (getExportSetImports x).map (renameName ρ)
  | .AllExport => by simp only [renameExport, getExportSetImports, List.map_nil]
  | .SubsetExport xs => by simp only [renameExport, getExportSetImports, exportsImports_rename ρ xs]
  | .FunctionExport _ => by simp only [renameExport, getExportSetImports, List.map_cons, List.map_nil]
  | .TypeExport _ _ => by simp only [renameExport, getExportSetImports, List.map_nil]
theorem exportsImports_rename (ρ : Str → Str) :
    ∀ xs, getExportSetImportsAll (renameExports ρ xs) = (getExportSetImportsAll xs).map (renameName ρ)
  | [] => by simp only [renameExports, getExportSetImportsAll, List.map_nil]
  | x :: xs => by
    simp only [renameExports, getExportSetImportsAll, List.map_append, exportImports_rename ρ x,
      exportsImports_rename ρ xs]
end

/-- The names a file exposes are replaced with it. -/
theorem importedNames_rename (ρ : Str → Str) (xs : List Statement) :
    getImportedNames (xs.map (renameStatement ρ)) = (getImportedNames xs).map (renameName ρ) := by
  unfold getImportedNames
  induction xs with
  | nil => rfl
  | cons x xs ih =>
    rw [List.map_cons, List.flatMap_cons, List.flatMap_cons, List.map_append, ih]
    congr 1
    cases x with
    | ImportStatement n o x =>
      cases x with
      | none => rfl
      | some x => exact exportImports_rename ρ x
    | _ => rfl

/-- C56: `check` prints the names of the one file replaced. -/
theorem C56_check {ρ : Str → Str} (hρ : Kinds ρ) (f : Str) (args : List Str) {read read' : Str → Read} {s : Str}
    (hs : read f = .contents s) (ht : read' f = .contents (renameText ρ s)) (h : Text (By ρ) 0 s (renameText ρ s))
    (prog : Str) (ns : List Name) (hc : checkMain read (prog :: f :: args) = ⟨[.names ns], .code 0⟩) :
    checkMain read' (prog :: f :: args) = ⟨[.names (ns.map (renameName ρ))], .code 0⟩ := by
  have e : ∀ {r : Str → Read} {u : Str}, r f = .contents u → checkMain r (prog :: f :: args) =
      match file u with
      | .ok ast _ => ⟨[.names (getImportedNames ast)], .code 0⟩
      | .err => ⟨[.error (failure u)], .code 0⟩
      | .panic => ⟨[], .panicked⟩
      | .div => ⟨[], .diverged⟩ := by
    intro r u hu
    unfold checkMain
    rw [if_neg (by simp)]
    simp only [List.getElem?_cons_succ, List.getElem?_cons_zero, hu]
    cases file u <;> rfl
  rw [e hs] at hc
  rw [e ht]
  rcases C56_file (Rn.renaming_by hρ) h with ⟨a, b, h1, h2, h3⟩ | ⟨h1, h2⟩
  · rw [h1] at hc
    rw [h2, Rn.statements_eq hρ h3]
    dsimp only at hc ⊢
    injection hc with hc
    injection hc with hc
    injection hc with hc
    rw [importedNames_rename, hc]
  · rw [h1] at hc; cases hc

/-! Cases. -/

/-- A renaming: a variable, a name in camel case, a type, and 12; all others stay. -/
def swapNames (w : Str) : Str :=
  if w = c!"view" then c!"render" else if w = c!"render" then c!"view"
  else if w = c!"userName" then c!"aB" else if w = c!"Html" then c!"Virtual_Dom2"
  else if Digits w ∧ decimal w = 12 then c!"9000" else w
theorem kinds_swapNames : Kinds swapNames := by
  have word : ∀ {P Q : Char → Prop} [DecidablePred P] [DecidablePred Q] (c : Char) (w : Str),
      (decide (P c) && w.all fun c => decide (Q c)) = true → Word P Q (c :: w) := by
    intro P Q _ _ c w h
    simp only [Bool.and_eq_true, decide_eq_true_eq, List.all_eq_true] at h
    exact ⟨c, w, rfl, h.1, h.2⟩
  have digits : ∀ {w : Str}, Digits w → swapNames w = if decimal w = 12 then c!"9000" else w := by
    intro w h
    have ne : ∀ {v : Str}, ¬ Digits v → w ≠ v := by rintro v hv rfl; exact hv h
    unfold swapNames
    rw [if_neg (ne (by decide)), if_neg (ne (by decide)), if_neg (ne (by decide)), if_neg (ne (by decide))]
    simp only [h, true_and]
  refine ⟨?_, ?_⟩
  rotate_left
  · intro v w hv hw e
    rw [digits hv, digits hw]
    simp only [e]
    split
    · rfl
    · exact e
  intro w _
  unfold swapNames
  split
  next h => subst h; exact .inr (.inl ⟨⟨word _ _ rfl, by decide, by decide⟩, word _ _ rfl, by decide, by decide⟩)
  split
  next h => subst h; exact .inr (.inl ⟨⟨word _ _ rfl, by decide, by decide⟩, word _ _ rfl, by decide, by decide⟩)
  split
  next h => subst h; exact .inr (.inr (.inl ⟨⟨word _ _ rfl, by decide⟩, word _ _ rfl, by decide⟩))
  split
  next h => subst h; exact .inr (.inr (.inr (.inl ⟨word _ _ rfl, word _ _ rfl⟩)))
  split
  next h => exact .inr (.inr (.inr (.inr ⟨h.1, by decide, by rw [h.2]; decide⟩)))
  exact .inl rfl

/-- A file with a signature, a comment, a string and numbers. -/
def swapSource : Str :=
  c!"import Html exposing (render)\n-- view it\nview : Html a -> view\nview userName =\n  render userName.view \"a view\" -0.12\ninfixl 012 +"
set_option maxRecDepth 20000 in
example : renameText swapNames swapSource =
    c!"import Virtual_Dom2 exposing (view)\n-- render it\nrender : Virtual_Dom2 a -> render\nrender aB =\n  view aB.render \"a render\" -0.9000\ninfixl 9000 +" := by
  decide
set_option maxRecDepth 20000 in
example : file swapSource = .ok [
    .ImportStatement [c!"Html"] none (some (.SubsetExport [.FunctionExport c!"render"])),
    .Comment c!" view it",
    .Function ⟨some ⟨c!"view", .TypeApplication (.TypeConstructor [c!"Html"] [.TypeVariable c!"a"])
        (.TypeVariable c!"view")⟩,
      ⟨c!"view", [.Variable [c!"userName"]],
        .Application (.Application (.Application (.Variable [c!"render"])
          (.Access (.Variable [c!"userName"]) [c!"view"])) (.String c!"a view")) (.Float c!"-0.12")⟩⟩,
    .InfixDeclaration .L 12 c!"+"] [] := by rfl
set_option maxRecDepth 20000 in
/-- Its renamed tree, by the theorem. -/
example : file (renameText swapNames swapSource) = .ok [
    .ImportStatement [c!"Virtual_Dom2"] none (some (.SubsetExport [.FunctionExport c!"view"])),
    .Comment c!" render it",
    .Function ⟨some ⟨c!"render", .TypeApplication (.TypeConstructor [c!"Virtual_Dom2"] [.TypeVariable c!"a"])
        (.TypeVariable c!"render")⟩,
      ⟨c!"render", [.Variable [c!"aB"]],
        .Application (.Application (.Application (.Variable [c!"view"])
          (.Access (.Variable [c!"aB"]) [c!"render"])) (.String c!"a render")) (.Float c!"-0.9000")⟩⟩,
    .InfixDeclaration .L 9000 c!"+"] [] :=
  (C56_quoteFree kinds_swapNames (s := swapSource) (by decide)).1 _ rfl
set_option maxRecDepth 20000 in
example : checkMain (fun _ => .contents (renameText swapNames swapSource)) [c!"check", c!"f"] =
    ⟨[.names [c!"view"]], .code 0⟩ :=
  C56_check kinds_swapNames c!"f" [] (read := fun _ => .contents swapSource)
    (read' := fun _ => .contents (renameText swapNames swapSource)) (s := swapSource) rfl rfl
    (Rn.text_rename kinds_swapNames (by decide)) c!"check" [c!"render"] rfl

/-- The premise of `C56_rename` holds for texts with character literals, which are left alone. -/
example : Text (By swapNames) 0 c!"[view, 'v', '\\x41']" c!"[render, 'v', '\\x41']" := by
  have n : ∀ c, ¬ IdentChar c → Ends [c] := fun c h => next_cons.2 h
  refine .other (by decide) (by decide) ?_
  refine .word (w := c!"view") (w' := c!"render") (by decide) (by decide) (next_cons.2 (by decide))
    (next_cons.2 (by decide)) ⟨by decide, rfl⟩ ?_
  refine .other (by decide) (by decide) (.other (by decide) (by decide) ?_)
  refine .literal (by decide) (by decide) ?_
  refine .other (by decide) (by decide) (.other (by decide) (by decide) ?_)
  refine .hexadecimal (by decide) (by decide) ?_
  exact .other (by decide) (by decide) .nil

/-- The kinds matter: a name with a capital is no type variable, … -/
example : file c!"x : ab\nx = 1" = .ok [.Function ⟨some ⟨c!"x", .TypeVariable c!"ab"⟩, ⟨c!"x", [], .Integer c!"1"⟩⟩] [] ∧
    file c!"x : aB\nx = 1" = .err := ⟨by rfl, by rfl⟩
/-- … a keyword is no name, … -/
example : file c!"x = of" = .err := by rfl
/-- … and some names that are not reserved begin a declaration. -/
example : file c!"infix 0 +" = .ok [.InfixDeclaration .N 0 c!"+"] [] ∧ file c!"affix 0 +" = .err := ⟨by rfl, by rfl⟩
/-- Words after a lone `'` must be left alone: renaming `b` to `bb` makes a literal no literal. -/
example : expression 0 c!"f 'b'" = .ok (.Application (.Variable [c!"f"]) (.Character 'b')) [] ∧
    expression 0 c!"f 'bb'" = .ok (.Variable [c!"f"]) c!" 'bb'" := ⟨by rfl, by rfl⟩
/-- Numbers that are too large for a priority must be replaced by such numbers. -/
example : file c!"infix 9223372036854775807 +" = .ok [.InfixDeclaration .N 9223372036854775807 c!"+"] [] ∧
    file c!"infix 9223372036854775808 +" = .err := ⟨by rfl, by rfl⟩
/-- A text that is not read to the end of a word. -/
example : type_ 0 c!"a userName" = .ok (.TypeVariable c!"a") c!" userName" ∧
    type_ 0 c!"A userName" = .ok (.TypeConstructor [c!"A"] [.TypeVariable c!"user"]) c!"Name" := ⟨by rfl, by rfl⟩
-- Each theorem of C56, applied to that text.
example := C56_file (Rn.renaming_by kinds_swapNames) (Rn.text_rename kinds_swapNames (s := swapSource) (by decide))
example := C56_expression (Rn.renaming_by kinds_swapNames) 0 (Rn.text_rename kinds_swapNames (s := c!"view (render 1)") (by decide))
example := C56_function (Rn.renaming_by kinds_swapNames) 0 (Rn.text_rename kinds_swapNames (s := c!"view x = render x") (by decide))
example := C56_type (Rn.renaming_by kinds_swapNames) 0 (Rn.text_rename kinds_swapNames (s := c!"Html render") (by decide))
example := C56_typeAnnotation (Rn.renaming_by kinds_swapNames) 0 (Rn.text_rename kinds_swapNames (s := c!"Html render -> b") (by decide))
example := C56_statement (Rn.renaming_by kinds_swapNames) (Rn.text_rename kinds_swapNames (s := c!"import Html exposing (view)") (by decide))
example := C56_rename kinds_swapNames (Rn.text_rename kinds_swapNames (s := swapSource) (by decide))

end ElmParser
