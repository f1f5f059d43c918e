import Verif.Proofs.SpacingParsers
import Verif.Proofs.StmtSound
import Verif.Props.Binaries
import Verif.Props.Totality

/-! Property C58: spacing within lines, the number of blank lines and the texts of comments do not matter. -/
namespace ElmParser
open Spec Spec.Spacing Spec.Rename

namespace Lk
variable {α : Type} {K : Str → Str → Prop} {R : α → α → Prop}

theorem good_undef {p : Parser α} (t : ∀ k, Good k p) (s : Str) : ¬ Undef (p s) := by
  rcases t _ s (Nat.le_refl _) with t | ⟨_, _, t, _⟩ <;> rw [t] <;> rintro (h | h) <;> cases h

/-- Of a parser that always returns the simulation leaves these cases. -/
theorem S.cases {p : Parser α} (h : S K R p p) (t : ∀ k, Good k p) {s s' : Str} (hs : T K s s') :
    (∃ v v' r r', p s = .ok v r ∧ p s' = .ok v' r' ∧ R v v' ∧ T K r r') ∨ (p s = .err ∧ p s' = .err) := by
  have h := h s s' hs
  have t1 := good_undef t s
  have t2 := good_undef t s'
  revert h t1 t2
  generalize p s = x, p s' = y
  intro h t1 t2
  cases h with
  | ok hR ha _ _ _ => exact .inl ⟨_, _, _, _, rfl, rfl, hR, ha⟩
  | err => exact .inr ⟨rfl, rfl⟩
  | undefL h => exact absurd h t1
  | undefR h => exact absurd h t2

theorem E.cases {p : Parser α} (h : E K p p) (t : ∀ k, Good k p) {s s' : Str} (hs : T K s s') :
    (∃ v r r', p s = .ok v r ∧ p s' = .ok v r' ∧ ∃ q, Like K q r r') ∨ (p s = .err ∧ p s' = .err) := by
  rcases S.cases h t hs with ⟨v, _, r, r', h1, h2, rfl, h3⟩ | h
  · exact .inl ⟨v, r, r', h1, h2, h3⟩
  · exact .inr h
end Lk

section
variable {K : Str → Str → Prop} {p : Char} {s t : Str}

/-! ### C58 -/

/-- C58: let the texts `s` and `t` differ in their spacing and their comments only (`Like`).  Then both are accepted, with
trees that differ in the comments only, or both are rejected. -/
theorem C58_file (h : Like K p s t) :
    (∃ xs ys, file s = .ok xs [] ∧ file t = .ok ys [] ∧ Each (StmtLike K) xs ys) ∨ (file s = .err ∧ file t = .err) := by
  rcases Lk.S.cases Lk.s_file good_file ⟨p, h⟩ with ⟨a, b, r, q, h1, h2, h3, -⟩ | h
  · obtain rfl := (file_sound h1).1
    obtain rfl := (file_sound h2).1
    exact .inl ⟨a, b, h1, h2, h3⟩
  · exact .inr h

/-- C58: if the comments are the same then so are the trees. -/
theorem C58_spacing (h : Like Eq p s t) : file t = file s := by
  rcases C58_file h with ⟨xs, ys, h1, h2, h3⟩ | ⟨h1, h2⟩
  · rw [h1, h2]
    congr 1
    clear h1 h2
    induction h3 with
    | nil => rfl
    | cons h _ ih =>
      rw [ih]
      cases h with
      | same => rfl
      | comment h => rw [h]
  · rw [h1, h2]

/-- C58: an expression in texts that are alike: the same tree, and rests that are alike.  In places for expressions comments
do not show at all. -/
theorem C58_expression (ind : Nat) (h : Like K p s t) :
    (∃ v r q, expression ind s = .ok v r ∧ expression ind t = .ok v q ∧ ∃ c, Like K c r q) ∨
    (expression ind s = .err ∧ expression ind t = .err) :=
  Lk.E.cases (Lk.exOk_expression ind) (fun k => (cons_expression k _).good) ⟨p, h⟩
@[inherit_doc C58_expression]
theorem C58_function (ind : Nat) (h : Like K p s t) :
    (∃ v r q, function ind s = .ok v r ∧ function ind t = .ok v q ∧ ∃ c, Like K c r q) ∨
    (function ind s = .err ∧ function ind t = .err) :=
  Lk.E.cases (Lk.e_function ind) (fun k => (cons_function k _).good) ⟨p, h⟩
@[inherit_doc C58_expression]
theorem C58_type (ind : Nat) (h : Like K p s t) :
    (∃ v r q, type_ ind s = .ok v r ∧ type_ ind t = .ok v q ∧ ∃ c, Like K c r q) ∨
    (type_ ind s = .err ∧ type_ ind t = .err) :=
  Lk.E.cases (p := type_ ind) (Lk.tyOk_tyRec.ty ind) (fun k => (cons_type_ k _).good) ⟨p, h⟩
@[inherit_doc C58_expression]
theorem C58_typeAnnotation (ind : Nat) (h : Like K p s t) :
    (∃ v r q, typeAnnotation ind s = .ok v r ∧ typeAnnotation ind t = .ok v q ∧ ∃ c, Like K c r q) ∨
    (typeAnnotation ind s = .err ∧ typeAnnotation ind t = .err) :=
  Lk.E.cases (p := typeAnnotation ind) (Lk.tyOk_tyRec.ann ind) (fun k => (cons_typeAnnotation k _).good) ⟨p, h⟩
/-- C58: a statement: the same, or two comments. -/
theorem C58_statement (h : Like K p s t) :
    (∃ x y r q, statement s = .ok x r ∧ statement t = .ok y q ∧ StmtLike K x y ∧ ∃ c, Like K c r q) ∨
    (statement s = .err ∧ statement t = .err) :=
  Lk.S.cases Lk.s_statement (fun k => (cons_statement k).good) ⟨p, h⟩

/-! ### The programs -/

/-- Every file reads the same, except that some differ in spacing and comments. -/
def SameUpToSpacing (K : Str → Str → Prop) (read read' : Str → Read) : Prop :=
  ∀ f, read' f = read f ∨ ∃ p s t, Like K p s t ∧ read f = .contents s ∧ read' f = .contents t

/-- The texts are alike, somewhere in a line. -/
def Alike (K : Str → Str → Prop) (s t : Str) : Prop := ∃ p, Like K p s t

theorem importedNames_alike {xs ys : List Statement} (h : Each (StmtLike K) xs ys) : getImportedNames ys = getImportedNames xs := by
  induction h with
  | nil => rfl
  | cons h _ ih =>
    unfold getImportedNames at ih ⊢
    rw [List.flatMap_cons, List.flatMap_cons, ih]
    cases h <;> rfl

/-- C58: the error of a rejected file shows texts that are alike. -/
theorem C58_failure (h : Like K p s t) :
    (∃ r q, failure s = .eof r ∧ failure t = .eof q ∧ Alike K r q) ∨ (failure s = .other ∧ failure t = .other) := by
  unfold failure
  rcases Lk.S.cases Lk.s_statements (fun k => (cons_statements k).good) ⟨p, h⟩ with ⟨a, b, r, q, h1, h2, -, h3⟩ | ⟨h1, h2⟩
  · rw [h1, h2]; exact .inl ⟨r, q, rfl, rfl, h3⟩
  · rw [h1, h2]; exact .inr ⟨rfl, rfl⟩

theorem sameMsgs_alike (h : Like K p s t) : SameMsgs (Alike K) [.error (failure s)] [.error (failure t)] := by
  rcases C58_failure h with ⟨r, q, h1, h2, h3⟩ | ⟨h1, h2⟩ <;> rw [h1, h2]
  · exact .rest h3 .nil
  · exact .refl _

/-- C58: `check` prints the same and ends the same way, except that the unread texts shown with an error are alike. -/
theorem C58_check {read read' : Str → Read} (h : SameUpToSpacing K read read') (args : List Str) :
    (checkMain read args).SameBut (Alike K) (checkMain read' args) := by
  unfold checkMain
  split
  · exact .refl _
  · cases args[1]? with
    | none => exact .refl _
    | some f =>
      simp only
      rcases h f with h | ⟨p, s, t, h1, h, h'⟩
      · rw [h]; exact .refl _
      · rw [h, h']
        rcases C58_file h1 with ⟨xs, ys, h3, h4, h5⟩ | ⟨h3, h4⟩
        · simp only [h3, h4, importedNames_alike h5]
          exact .refl _
        · simp only [h3, h4]
          exact ⟨sameMsgs_alike h1, rfl⟩

/-- C58: the same for `dump`, also for a directory, if the comments are the same. -/
theorem C58_dump {read read' : Str → Read} (h : SameUpToSpacing Eq read read') (isDir : Str → Option Bool)
    (walk : Str → List (Option Entry)) (path : Option Str) (quiet : Bool) :
    (dumpMain read isDir walk path quiet).SameBut (Alike Eq) (dumpMain read' isDir walk path quiet) := by
  refine dumpMain_sameBut (fun f => ?_) isDir walk path
  unfold dumpFile
  rcases h f with h | ⟨p, s, t, h1, h, h'⟩
  · rw [h]; exact .refl _
  · rw [h, h']
    simp only [C58_spacing h1]
    cases hs : file s with
    | err =>
      cases quiet with
      | true => exact .refl _
      | false => exact sameMsgs_alike h1
    | _ => exact .refl _

/-- C58: `dump --quiet` prints the same and ends the same way, whatever the comments say. -/
theorem C58_quiet {read read' : Str → Read} (h : SameUpToSpacing K read read') (isDir : Str → Option Bool)
    (walk : Str → List (Option Entry)) (path : Option Str) :
    (dumpMain read isDir walk path true).SameBut Eq (dumpMain read' isDir walk path true) := by
  refine dumpMain_sameBut (fun f => ?_) isDir walk path
  unfold dumpFile
  rcases h f with h | ⟨p, s, t, h1, h, h'⟩
  · rw [h]; exact .refl _
  · rw [h, h']
    rcases C58_file h1 with ⟨xs, ys, h3, h4, -⟩ | ⟨h3, h4⟩ <;> simp only [h3, h4, if_true] <;> exact .refl _
end

/-! ### Squeezing -/

namespace Lk
theorem squeeze_spaces (k : Nat) (s : Str) : squeeze ' ' (sp k ++ s) = squeeze ' ' s := by
  induction k with
  | zero => rfl
  | succ k ih =>
    have e : sp (k + 1) ++ s = ' ' :: (sp k ++ s) := rfl
    rw [e, squeeze, if_pos ⟨rfl, rfl⟩, ih]

/-- A text without quotes and comments, as a text followed by its squeezed text. -/
theorem like_squeeze (K : Str → Str → Prop) :
    ∀ (n : Nat) (p : Char) (s : Str), s.length ≤ n → '"' ∉ s → '\'' ∉ s → ¬ c!"--" <:+: s → ¬ c!"{-" <:+: s →
      (p = ' ' → Next (· ≠ ' ') s) → Like K p s (squeeze p s) := by
  intro n
  induction n with
  | zero =>
    intro p s hl _ _ _ _ _
    cases s with
    | nil => exact .nil
    | cons c s => simp at hl
  | succ n ih =>
    intro p s hl h1 h2 h3 h4 hp
    cases s with
    | nil => exact .nil
    | cons c s =>
      have hs : ∀ u, u <:+ s → '"' ∉ u ∧ '\'' ∉ u ∧ ¬ c!"--" <:+: u ∧ ¬ c!"{-" <:+: u := fun u hu =>
        ⟨fun h => h1 (.tail _ (hu.subset h)), fun h => h2 (.tail _ (hu.subset h)),
          fun h => h3 (h.trans (hu.trans (List.suffix_cons c s)).isInfix),
          fun h => h4 (h.trans (hu.trans (List.suffix_cons c s)).isInfix)⟩
      simp only [List.length_cons, Nat.add_le_add_iff_right] at hl
      have hc : ¬ (c = ' ' ∧ p = ' ') := fun ⟨a, b⟩ => next_cons.1 (hp b) a
      rw [squeeze, if_neg hc]
      by_cases hcp : c = ' ' ∧ ¬ Kept p
      · obtain ⟨rfl, hk⟩ := hcp
        have e1 : seen p ' ' = ' ' := by unfold seen; rw [if_neg fun h => hk h.2]
        obtain ⟨k, r, rfl, hr⟩ : ∃ k r, s = sp k ++ r ∧ Next (· ≠ ' ') r := by
          clear ih hp h1 h2 h3 h4 hs hl hc
          induction s with
          | nil => exact ⟨0, [], rfl, next_nil _⟩
          | cons d s ih =>
            by_cases hd : d = ' '
            · subst hd
              obtain ⟨k, r, rfl, hr⟩ := ih
              exact ⟨k + 1, r, rfl, hr⟩
            · exact ⟨0, d :: s, rfl, next_cons.2 hd⟩
        rw [e1, squeeze_spaces]
        obtain ⟨a, b, c, d⟩ := hs r (List.suffix_append _ _)
        refine .spaces (k := k) (k' := 0) hk (ih ' ' r ?_ a b c d fun _ => hr)
        rw [List.length_append] at hl
        omega
      · have hseen : seen p c = ' ' → False := by
          unfold seen
          split
          next h => intro e; rw [e] at h; exact absurd h.2 (by decide)
          next h =>
            rintro rfl
            exact h ⟨rfl, Classical.byContradiction fun hk => hcp ⟨rfl, hk⟩⟩
        obtain ⟨a, b, c', d⟩ := hs s (List.suffix_refl s)
        refine .char (fun e => h1 (e ▸ .head _)) (fun e => h2 (e ▸ .head _)) ?_ (ih _ s hl a b c' d fun e => (hseen e).elim)
        rintro (rfl | rfl)
        · cases s with
          | nil => exact next_nil _
          | cons d s => exact next_cons.2 fun e => h3 ⟨[], s, by rw [e]; rfl⟩
        · cases s with
          | nil => exact next_nil _
          | cons d s => exact next_cons.2 fun e => h4 ⟨[], s, by rw [e]; rfl⟩
end Lk

/-- C58: this applies to every text without quotes and comments: between the tokens of a line one space is as good as several. -/
theorem C58_squeeze (s : Str) (h1 : '"' ∉ s) (h2 : '\'' ∉ s) (h3 : ¬ c!"--" <:+: s) (h4 : ¬ c!"{-" <:+: s) :
    file (squeeze '\n' s) = file s :=
  C58_spacing (Lk.like_squeeze Eq s.length '\n' s (Nat.le_refl _) h1 h2 h3 h4 nofun)

/-! Cases. -/

example : squeeze '\n' c!"x   =  f\n    a,  b   c  \ny  = 1" = c!"x = f\n    a,  b c \ny = 1" := by decide
example : file c!"x   =  f\n    a   c  \n\ny  = 1" = .ok
    [.Function (.mk none (.mk c!"x" [] (.Application (.Application (.Variable [c!"f"]) (.Variable [c!"a"])) (.Variable [c!"c"])))),
      .Function (.mk none (.mk c!"y" [] (.Integer c!"1")))] [] := by
  rw [← C58_squeeze _ (by decide) (by decide) (by decide) (by decide)]
  rfl

/-- Two texts with comments, a string, spaces at the end of a line, and blank lines. -/
def looseSource : Str := c!"-- the view\nview   x =  \n  f   \"a  b\" -- now\n     x\n\n  \n\n{-new-}"
@[inherit_doc looseSource]
def tightSource : Str := c!"-- V\nview x = \n  f \"a  b\"  --\n     x\n\n{- NEW -}"

theorem like_loose : Like (fun _ _ => True) '\n' looseSource tightSource := by
  refine .comment (u := c!" the view") (v := c!" V") (by decide) (by decide) (by decide) (next_cons.2 (by decide)) (next_cons.2 (by decide))
    (next_cons.2 rfl) trivial ?_
  have c : ∀ {p c : Char} {s t : Str}, (c ≠ '"' ∧ c ≠ '\'' ∧ c ≠ '-' ∧ c ≠ '{') → Like (fun _ _ => True) (seen p c) s t →
      Like (fun _ _ => True) p (c :: s) (c :: t) := fun h g =>
    .char h.1 h.2.1 (fun e => e.elim (absurd · h.2.2.1) (absurd · h.2.2.2)) g
  refine c (by decide) <| c (by decide) <| c (by decide) <| c (by decide) <| c (by decide) ?_
  refine .spaces (k := 2) (k' := 0) (by decide) <| c (by decide) <| c (by decide) <| c (by decide) ?_
  refine .spaces (k := 1) (k' := 0) (by decide) <| c (by decide) <| c (by decide) <| c (by decide) ?_
  refine c (by decide) ?_
  refine .spaces (k := 2) (k' := 0) (by decide) ?_
  refine .string (w := c!"a  b") ?_ nofun ?_
  · exact .plain (by decide) (by decide) (by decide) <| .plain (by decide) (by decide) (by decide) <|
      .plain (by decide) (by decide) (by decide) <| .plain (by decide) (by decide) (by decide) .nil
  refine .spaces (k := 0) (k' := 1) (by decide) ?_
  refine .comment (u := c!" now") (v := []) (by decide) (by decide) (by decide) (next_cons.2 (by decide)) (next_nil _)
    (next_cons.2 rfl) trivial ?_
  refine c (by decide) <| c (by decide) <| c (by decide) <| c (by decide) <| c (by decide) <| c (by decide) <| c (by decide) ?_
  refine .blank (k := 0) (ks := [2, 0]) (k' := 0) (ks' := []) ?_
  exact .block (w := c!"new") (w' := c!" NEW ") (by decide) (by decide) (next_cons.2 (by decide)) (next_cons.2 (by decide))
    (by decide) (by decide) trivial .nil

example : file looseSource = .ok [.Comment c!" the view",
    .Function (.mk none (.mk c!"view" [.Variable [c!"x"]]
      (.Application (.Application (.Variable [c!"f"]) (.String c!"a  b")) (.Variable [c!"x"])))),
    .Comment c!"new"] [] := by rfl
/-- The tree of the other text, by the theorem. -/
example : ∃ u v, file tightSource = .ok [.Comment u,
    .Function (.mk none (.mk c!"view" [.Variable [c!"x"]]
      (.Application (.Application (.Variable [c!"f"]) (.String c!"a  b")) (.Variable [c!"x"])))),
    .Comment v] [] := by
  rcases C58_file like_loose with ⟨xs, ys, h1, h2, h3⟩ | ⟨h1, -⟩
  · rw [h2]
    clear h2
    cases h1
    cases h3 with
    | cons a h => cases h with
      | cons b h => cases h with
        | cons c h =>
          cases h
          cases b
          cases a <;> cases c <;> exact ⟨_, _, rfl⟩
  · cases h1
example : SameUpToSpacing (fun _ _ => True) (fun _ => .contents looseSource) (fun _ => .contents tightSource) := fun _ =>
  .inr ⟨_, _, _, like_loose, rfl, rfl⟩

/-- Two texts with the same comments, and no tree. -/
example : Like Eq '\n' c!"x   = 1 )" c!"x =  1 )" ∧ failure c!"x   = 1 )" = .eof c!")" :=
  ⟨.char (by decide) (by decide) (by simp) <| .spaces (k := 2) (k' := 0) (by decide) <|
    .char (by decide) (by decide) (by simp) <| .spaces (k := 0) (k' := 1) (by decide) <|
    .char (by decide) (by decide) (by simp) <| .char (by decide) (by decide) (by simp) <|
    .char (by decide) (by decide) (by simp) .nil, by rfl⟩

/-! The conditions in `Like` matter. -/

/-- Two dashes may be the beginning of an operator, … -/
example : file c!"infixl 5 ---\nx = 1" = .ok [.InfixDeclaration .L 5 c!"---", .Function ⟨none, ⟨c!"x", [], .Integer c!"1"⟩⟩] [] ∧
    file c!"infixl 5 ---b\nx = 1" = .err := ⟨by rfl, by rfl⟩
/-- … a brace may be followed by a line comment, … -/
example : file c!"x = {-- a-}\n }" = .ok [.Function ⟨none, ⟨c!"x", [], .Record []⟩⟩] [] ∧
    file c!"x = {- a-}\n }" = .err := ⟨by rfl, by rfl⟩
/-- … one blank line after a signature is not the same as none, … -/
example : file c!"x : a\nx = 1" = .ok [.Function ⟨some ⟨c!"x", .TypeVariable c!"a"⟩, ⟨c!"x", [], .Integer c!"1"⟩⟩] [] ∧
    file c!"x : a\n\nx = 1" = .err := ⟨by rfl, by rfl⟩
/-- … and neither are one space and two after a comma. -/
example : file c!"import A exposing (T(A, B))" = .ok [.ImportStatement [c!"A"] none
      (some (.SubsetExport [.TypeExport c!"T" (some (.SubsetExport [.FunctionExport c!"A", .FunctionExport c!"B"]))]))] [] ∧
    file c!"import A exposing (T(A,  B))" = .err := ⟨by rfl, by rfl⟩
theorem like_example : Like Eq '\n' c!"x   = 1 )" c!"x =  1 )" :=
  .char (by decide) (by decide) (by simp) <| .spaces (k := 2) (k' := 0) (by decide) <|
    .char (by decide) (by decide) (by simp) <| .spaces (k := 0) (k' := 1) (by decide) <|
    .char (by decide) (by decide) (by simp) <| .char (by decide) (by decide) (by simp) <|
    .char (by decide) (by decide) (by simp) .nil
example : file c!"x =  1 )" = file c!"x   = 1 )" := C58_spacing like_example
example := C58_expression 0 like_loose
example := C58_function 0 like_example
example := C58_type 0 like_example
example := C58_typeAnnotation 0 like_example
example := C58_statement like_example
example := C58_failure like_example
theorem sameUpToSpacing_example : SameUpToSpacing Eq (fun _ => .contents c!"x   = 1 )") (fun _ => .contents c!"x =  1 )") :=
  fun _ => .inr ⟨_, _, _, like_example, rfl, rfl⟩
example := C58_check sameUpToSpacing_example [c!"check", c!"a.elm"]
example := C58_dump sameUpToSpacing_example (fun _ => some false) (fun _ => []) (some c!"a.elm") false
example := C58_quiet sameUpToSpacing_example (fun _ => some false) (fun _ => []) (some c!"a.elm")

end ElmParser
