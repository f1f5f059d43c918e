import Verif.Proofs.StmtOrder
import Verif.Props.Totality
import Verif.Props.Statements

/-! Properties C43 and C44: how files and statements start, and how bodies of definitions start. -/
namespace ElmParser
open Spec

/-! ### C43 -/

/-- The text starts like a statement: with a lower-case letter, `_`, `(`, `--` or `{-`. -/
inductive StartsStatement : Str → Prop
  | lower {c t} : Lower c → StartsStatement (c :: t)
  | underscore {t} : StartsStatement ('_' :: t)
  | paren {t} : StartsStatement ('(' :: t)
  | line {t} : StartsStatement ('-' :: '-' :: t)
  | block {t} : StartsStatement ('{' :: '-' :: t)

theorem startsStatement_fnName {n : Name} {m t : Str} (h : FnName n m) : StartsStatement (m ++ t) := by
  obtain ⟨x, u, rfl, hx⟩ := fnName_head h
  rcases hx with rfl | hx | rfl
  · exact .paren
  · exact .lower hx
  · exact .underscore

theorem startsStatement_src {st : Prop} {x : Statement} {c : Str} (h : StmtSrc st x c) (t : Str) :
    StartsStatement (c ++ t) := by
  cases h with
  | portModule | effectModule | module_ | import_ | typeAlias | type_ | portType | port => exact .lower (by decide)
  | function h =>
    cases h with
    | fn h =>
      cases h with
      | defn hn => simp only [List.append_assoc]; exact startsStatement_fnName hn
    | fnSig hn => simp only [List.append_assoc]; exact startsStatement_fnName hn
  | @infix_ a => cases a <;> exact .lower (by decide)
  | block => exact .block

/-- C43: an accepted statement starts with a lower-case letter, `_`, `(`, `--` or `{-`. -/
theorem C43_statement {s r : Str} {x : Statement} (h : statement s = .ok x r) : StartsStatement s := by
  rcases statement_sound h with ⟨t, -, rfl, -⟩ | ⟨c, rfl, hc⟩
  · exact .line
  · exact startsStatement_src hc r

example : StartsStatement c!"(+++) a b = 1" := C43_statement (r := []) (x := _) rfl

/-- C43: an accepted file is white space followed by a text that starts like that.  In particular it is not empty. -/
theorem C43_file {s r : Str} {xs : List Statement} (h : file s = .ok xs r) :
    ∃ w t, s = w ++ t ∧ (∀ c ∈ w, White c) ∧ StartsStatement t := by
  obtain ⟨-, w, d, rfl, hw, hd⟩ := file_sound h
  refine ⟨w, d, rfl, hw, ?_⟩
  cases hd with
  | line => exact .line
  | stmt hc => exact startsStatement_src hc _

example : ∃ w t, c!" \n{- a -}\nx = 1" = w ++ t ∧ (∀ c ∈ w, White c) ∧ StartsStatement t :=
  C43_file (r := []) (xs := _) rfl

/-- C43: a file is rejected when its first character is neither white space nor one of these: a byte order
mark, a shebang, a capital letter or a digit makes the whole file fail. -/
theorem C43_rejected {c : Char} {s : Str} (hw : ¬ White c) (h : ¬ StartsStatement (c :: s)) : file (c :: s) = .err := by
  rcases C01_file_total (c :: s) with e | ⟨xs, e⟩
  · exact e
  · obtain ⟨w, t, e', hw', ht⟩ := C43_file e
    cases w with
    | nil => rw [← List.nil_append t, ← e'] at ht; exact absurd ht h
    | cons d w =>
      rw [(List.cons.inj e').1] at hw
      exact absurd (hw' d (by simp)) hw

/-- C43: a byte order mark before any file makes it fail. -/
theorem C43_bom (s : Str) : file ('\uFEFF' :: s) = .err := by
  refine C43_rejected (by decide) fun h => ?_
  cases h with
  | lower h => revert h; decide

example : file ('\uFEFF' :: c!"x = 1\n") = .err := C43_bom _
example : ∃ xs, file c!"x = 1\n" = .ok xs [] := ⟨_, rfl⟩
example : file c!"#!/usr/bin/env elm\nx = 1\n" = .err :=
  C43_rejected (by decide) (by intro h; cases h with | lower h => revert h; decide)

/-! ### C44 -/

/-- What follows the first name of a definition does not make it an effect module. -/
theorem effect_defn {cs w u : Str} {as : List Expr} (ha : Src True 0 (.fargs as) cs) (hw : SpacesTxt w) :
    ∀ j v, gap 0 .GT (cs ++ (w ++ '=' :: u)) = .ok j v → ∀ y x, tag c!"module" v = .ok y x → NoGap x := by
  intro j v k1 y x k2
  have hts : TermStop (w ++ '=' :: u) := termStop_spaces hw
  cases ha with
  | fargs0 =>
    have := (spacesTxt_gap hw 0 .GT).gap (r := '=' :: u) (noGap_of_ne (by decide))
    obtain ⟨-, rfl⟩ := ok_inj this k1
    rw [tag_cons_ne (by decide)] at k2
    cases k2
  | @fargs _ _ a as' w' c' cs' hw' hc hcs =>
    simp only [List.append_assoc] at k1
    have := (spacesTxt_gap hw' 0 .GT).gap (r := c' ++ (cs' ++ (w ++ '=' :: u))) (src_starts hc trivial).noGap
    obtain ⟨-, rfl⟩ := ok_inj this k1
    have ht := term_complete hc (fargs_termStop hcs hts)
    obtain ⟨-, e⟩ := tag_eq_ok.1 k2
    rw [e] at ht
    rcases x with _ | ⟨z, x⟩
    · exact noGap_nil
    · by_cases hz : IdentChar z
      · exact ident_noGap hz
      · have : term 0 (c!"module" ++ (z :: x)) = .err := termF_keyword (by decide) (next_cons.2 hz)
        rw [this] at ht
        cases ht

theorem notDecl_defn {n m cs w u : Str} {as : List Expr} (hn : FnName n m) (ha : Src True 0 (.fargs as) cs)
    (hw : SpacesTxt w) : NotDecl (m ++ (cs ++ (w ++ '=' :: u))) := by
  have ht : Next (fun c => ¬ IdentChar c) (cs ++ (w ++ '=' :: u)) :=
    Spec.TermStop.ident (fargs_termStop ha (termStop_spaces hw))
  cases hn with
  | op ho => exact notDecl_head (by decide)
  | lo hl =>
    have key : ∀ k ∈ keywords, ∀ v x, tag k (n ++ (cs ++ (w ++ '=' :: u))) = .ok v x → NoGap x :=
      fun k hk v x h => keyword_name hk hl ht h
    exact ⟨portModule_err fun v x k1 j y k2 => (noGap_gap (key _ (by decide) _ _ k1) k2).elim,
      effect_not_module hl ht (effect_defn ha hw), module_err (key _ (by decide)), import_err (key _ (by decide)),
      typeAlias_err (key _ (by decide)), typeDecl_err (key _ (by decide)), portType_err (key _ (by decide)),
      port_err (key _ (by decide))⟩

theorem signature_err_defn {n m cs w u : Str} {as : List Expr} (hn : FnName n m) (ha : Src True 0 (.fargs as) cs)
    (hw : SpacesTxt w) : functionSignature 0 (m ++ (cs ++ (w ++ '=' :: u))) = .err := by
  unfold functionSignature
  rw [bind_apply, functionNameOrOp_ok hn (fargs_termStop ha (termStop_spaces hw)).ident, andThen_ok, bind_apply]
  cases ha with
  | fargs0 =>
    rw [List.nil_append, spaces_ok hw (next_cons.2 (by decide)), andThen_ok, bind_apply, char_cons_ne _ (by decide)]
    rfl
  | @fargs _ _ a as' w' c' cs' hw' hc hcs =>
    obtain ⟨x, v, rfl, hx⟩ := term_head hc _ (.inl rfl)
    simp only [List.append_assoc, List.cons_append]
    rw [spaces_ok hw' (next_cons.2 ?_), andThen_ok, bind_apply, char_cons_ne]
    · rfl
    · rintro rfl; revert hx; decide
    · rintro rfl; revert hx; decide

theorem function_defn {n m cs w u : Str} {as : List Expr} (hn : FnName n m) (ha : Src True 0 (.fargs as) cs)
    (hw : SpacesTxt w) : function 0 (m ++ (cs ++ (w ++ '=' :: u))) =
      (do let i ← gap 0 .GT
          let e ← expression i
          pure (Function.mk none (.mk n as e)) : Parser Function) u := by
  unfold function functionF functionDefinitionF
  have hts : TermStop (w ++ '=' :: u) := termStop_spaces hw
  rw [bind_apply, show opt (terminated (functionSignature 0) (newLineAndSameIndent 0)) (m ++ (cs ++ (w ++ '=' :: u))) =
      .ok none (m ++ (cs ++ (w ++ '=' :: u))) from opt_eq_ok.2 (.inr ⟨by
        rw [terminated_apply, signature_err_defn hn ha hw]; rfl, rfl, rfl⟩)]
  rw [andThen_ok, bind_apply, bind_apply, functionNameOrOp_ok hn (fargs_termStop ha hts).ident, andThen_ok, bind_apply,
    many0_ok_of_run (src_complete ha _ hts) (fargs_end hw (by decide) (by decide)), andThen_ok, bind_apply,
    spaces_ok hw (next_cons.2 (by decide)), andThen_ok, bind_apply, char_cons, andThen_ok, bind_apply, bind_apply]
  rcases gap 0 .GT u with ⟨i, v⟩ | _ | _ | _ <;> simp only [Res.andThen]
  rw [bind_apply, bind_apply]
  rcases expression i v with ⟨e, z⟩ | _ | _ | _ <;> rfl

theorem infix_err_defn {n m cs w u : Str} {as : List Expr} (hn : FnName n m) (ha : Src True 0 (.fargs as) cs)
    (hw : SpacesTxt w) (hi : ∀ a, n ≠ assocText a) : infixDeclaration (m ++ (cs ++ (w ++ '=' :: u))) = .err := by
  have ht : Next (fun c => ¬ IdentChar c) (cs ++ (w ++ '=' :: u)) :=
    Spec.TermStop.ident (fargs_termStop ha (termStop_spaces hw))
  cases hn with
  | op ho => exact infix_err_head (by decide)
  | lo hl =>
    refine err_of cons_infixDeclaration fun v r e => ?_
    unfold infixDeclaration at e
    simp only [bind_eq_ok] at e
    obtain ⟨a, s1, k1, _, s2, k2, -⟩ := e
    obtain ⟨e, -⟩ := assoc_iff.1 k1
    rcases word_cases (by cases a <;> decide) (loName_ident hl) ht e with ⟨rfl, -⟩ | ⟨x, y, rfl, hx⟩
    · exact hi a rfl
    · exact noGap_spaces (ident_noGap hx) k2

theorem comment_err_fnName {n m t : Str} (hn : FnName n m) : comment (m ++ t) = .err := by
  obtain ⟨x, u, rfl, hx⟩ := fnName_head hn
  have h : x ≠ '-' ∧ x ≠ '{' := by
    rcases hx with rfl | hx | rfl
    · decide
    · constructor <;> rintro rfl <;> revert hx <;> decide
    · decide
  refine err_of cons_comment fun v r e => ?_
  rcases alt_eq_ok.1 e with e | ⟨-, e⟩
  · obtain ⟨_, -, e, -⟩ := lineCommentStatement_iff.1 e
    exact h.1 (List.cons.inj e).1
  · obtain ⟨_, -, e, -⟩ := multiLineComment_iff'.1 e
    exact h.2 (List.cons.inj e).1

/-- After the head `f a b =` of a definition, `statement` reads a gap and an expression. -/
theorem statement_defn {n m cs w u : Str} {as : List Expr} (hn : FnName n m) (ha : Src True 0 (.fargs as) cs)
    (hw : SpacesTxt w) (hi : ∀ a, n ≠ assocText a) : statement (m ++ cs ++ w ++ c!"=" ++ u) =
      (do let i ← gap 0 .GT
          let e ← expression i
          pure (.Function (.mk none (.mk n as e))) : Parser Statement) u := by
  have h := function_defn (u := u) hn ha hw
  have nd := notDecl_defn (u := u) hn ha hw
  have e : m ++ cs ++ w ++ c!"=" ++ u = m ++ (cs ++ (w ++ '=' :: u)) := by simp
  rw [e]
  rcases hf : function 0 (m ++ (cs ++ (w ++ '=' :: u))) with ⟨f, r⟩ | _ | _ | _
  · rw [nd.fn hf]
    rw [hf] at h
    obtain ⟨i, v, k1, h⟩ := bind_eq_ok.1 h.symm
    obtain ⟨d, z, k2, h⟩ := bind_eq_ok.1 h
    rw [bind_apply, k1, andThen_ok, bind_apply, k2, andThen_ok]
    cases h; rfl
  · rw [nd.other hf, alt_apply, infix_err_defn hn ha hw hi, orElse_err, comment_err_fnName hn]
    rw [hf] at h
    rw [bind_apply] at h ⊢
    rcases hg : gap 0 .GT u with ⟨i, v⟩ | _ | _ | _
    · rw [hg, andThen_ok, bind_apply] at h
      rw [andThen_ok, bind_apply]
      rcases he : expression i v with ⟨d, z⟩ | _ | _ | _
      · rw [he] at h; cases h
      · rfl
      · rw [he] at h; cases h
      · rw [he] at h; cases h
    · rfl
    · rw [hg] at h; cases h
    · rw [hg] at h; cases h
  · exact absurd hf (C01_function_total 0 _).2
  · exact absurd hf (C01_function_total 0 _).1

theorem Spec.Gap.not_noGap {u v : Str} {ls : List Line} {last : Line} (h : Gap u ls last v) : ¬ NoGap u := by
  intro hn
  by_cases hl : ls = []
  · exact noGap_gap (ind := 0) (ir := .GTE) hn (gap_iff.2 ⟨ls, last, h, .inl ⟨hl, rfl⟩⟩)
  · exact noGap_gap (ind := 0) (ir := .GTE) hn (gap_iff.2 ⟨ls, last, h, .inr ⟨hl, rfl, Nat.zero_le _⟩⟩)

/-- C44: a text starting with the head `f a b =` of a definition is accepted as a statement exactly when the `=`
is followed by a gap (spaces, or newlines and line comments after which the next token is indented) and, after the gap,
by an expression.  The statement then is this definition.  (The names `infix`, `infixl` and `infixr` are left
out, as `infix 3 x` is a declaration.) -/
theorem C44_definition {n m cs w u r : Str} {as : List Expr} {x : Statement} (hn : FnName n m)
    (ha : Src True 0 (.fargs as) cs) (hw : SpacesTxt w) (hi : n ∉ [c!"infix", c!"infixl", c!"infixr"]) :
    statement (m ++ cs ++ w ++ c!"=" ++ u) = .ok x r ↔ ∃ ls last v i e, Gap u ls last v ∧
      (ls = [] ∧ i = 0 ∨ ls ≠ [] ∧ i = column last % 4294967296 ∧ 0 < i) ∧ expression i v = .ok e r ∧
      x = .Function (.mk none (.mk n as e)) := by
  have hi' : ∀ a, n ≠ assocText a := by
    simp only [List.mem_cons, List.not_mem_nil, or_false, not_or] at hi
    rintro (_ | _ | _)
    · exact hi.1
    · exact hi.2.1
    · exact hi.2.2
  rw [statement_defn hn ha hw hi']
  constructor
  · intro h
    obtain ⟨i, v, k1, h⟩ := bind_eq_ok.1 h
    obtain ⟨e, z, k2, h⟩ := bind_eq_ok.1 h
    cases h
    obtain ⟨ls, last, hg, h1⟩ := gap_iff.1 k1
    refine ⟨ls, last, v, i, e, hg, ?_, k2, rfl⟩
    rcases h1 with ⟨rfl, rfl⟩ | ⟨hne, rfl, h1⟩
    · exact .inl ⟨rfl, by split <;> rfl⟩
    · exact .inr ⟨hne, rfl, h1⟩
  · rintro ⟨ls, last, v, i, e, hg, h, k2, rfl⟩
    have k1 : gap 0 .GT u = .ok i v := by
      refine gap_iff.2 ⟨ls, last, hg, ?_⟩
      rcases h with ⟨rfl, rfl⟩ | ⟨hne, rfl, h⟩
      · exact .inl ⟨rfl, by split <;> rfl⟩
      · exact .inr ⟨hne, rfl, h⟩
    rw [bind_apply, k1, andThen_ok, bind_apply, k2]
    rfl

theorem C44_rejected {n m cs w u : Str} {as : List Expr} (hn : FnName n m)
    (ha : Src True 0 (.fargs as) cs) (hw : SpacesTxt w) (hi : n ∉ [c!"infix", c!"infixl", c!"infixr"])
    (h : ∀ ls last v, Gap u ls last v → (ls ≠ [] ∧ column last % 4294967296 = 0) ∨ ∀ i e r, expression i v ≠ .ok e r) :
    statement (m ++ cs ++ w ++ c!"=" ++ u) = .err := by
  refine err_of cons_statement fun x r e => ?_
  obtain ⟨ls, last, v, i, e, hg, h1, h2, -⟩ := (C44_definition hn ha hw hi).1 e
  rcases h _ _ _ hg with ⟨hne, h⟩ | h
  · rcases h1 with ⟨rfl, -⟩ | ⟨-, rfl, h1⟩
    · exact hne rfl
    · omega
  · exact h _ _ _ h2

/-- C44: a definition whose body starts with a tab or a carriage return, directly after the `=` or after spaces,
newlines and comments, is rejected.  So no definition with its body on the next line is accepted from a file with
Windows line endings, or with tabs for indentation. -/
theorem C44_tab {n m cs w u t : Str} {as : List Expr} {c : Char} (hn : FnName n m) (ha : Src True 0 (.fargs as) cs)
    (hw : SpacesTxt w) (hi : n ∉ [c!"infix", c!"infixl", c!"infixr"]) (hc : c = '\t' ∨ c = '\r')
    (hu : u = c :: t ∨ ∃ ls last, Gap u ls last (c :: t)) : statement (m ++ cs ++ w ++ c!"=" ++ u) = .err := by
  have hc' : NoGap (c :: t) := by rcases hc with rfl | rfl <;> exact noGap_of_ne (by decide)
  have hw' : White c := by rcases hc with rfl | rfl <;> decide
  refine C44_rejected hn ha hw hi fun ls last v hg => .inr fun i e r he => ?_
  rcases hu with rfl | ⟨ls', last', hg'⟩
  · exact hg.not_noGap hc'
  · obtain ⟨rfl, -⟩ := gap_unique hg hg'
    rw [expression_err_white hw'] at he
    cases he

theorem ex_lines {o : Option Str} {k : Nat} (h : ∀ t, o = some t → '\n' ∉ t := by simp) : ∀ l ∈ [(⟨k, o⟩ : Line)], l.ok := by
  intro l hl
  rw [List.mem_singleton.1 hl]
  exact h
theorem ex_last (k : Nat) : (⟨k, none⟩ : Line).ok := fun _ h => nomatch h
theorem ex_args : Src True 0 (.fargs [.Variable [c!"x"]]) c!" x" :=
  .fargs (w := c!" ") (c := c!"x") (cs := []) spacesTxt_space (ex_var 0 ex_x) .fargs0

/-- `f x =` at the end of a line that ends with a carriage return and a newline. -/
example (t : Str) : statement (c!"f" ++ c!" x" ++ c!" " ++ c!"=" ++ '\r' :: '\n' :: t) = .err :=
  C44_tab (.lo ex_f) ex_args spacesTxt_space (by decide) (.inr rfl) (.inl rfl)
/-- `f x =`, a comment, a newline, and a tab as indentation. -/
example (t : Str) : statement (c!"f" ++ c!" x" ++ c!" " ++ c!"=" ++ (c!" -- a\n" ++ '\t' :: t)) = .err :=
  C44_tab (.lo ex_f) ex_args spacesTxt_space (by decide) (.inl rfl)
    (.inr ⟨[⟨1, some c!" a"⟩], ⟨0, none⟩, rfl, by decide, ex_lines, ex_last _, .inl ⟨rfl, noGap_of_ne (by decide)⟩⟩)
/-- With a newline and a space it is accepted. -/
example : ∃ e, statement (c!"f" ++ c!" x" ++ c!" " ++ c!"=" ++ c!"\n 1") = .ok e [] :=
  ⟨_, (C44_definition (.lo ex_f) ex_args spacesTxt_space (by decide)).2
    ⟨[⟨0, none⟩], ⟨1, none⟩, c!"1", 1, .Integer c!"1",
      ⟨rfl, by decide, ex_lines, ex_last _, .inl ⟨rfl, noGap_of_ne (by decide)⟩⟩, .inr ⟨by simp, rfl, by decide⟩,
      rfl, rfl⟩⟩

/-- C44: a definition whose body starts in the first column is rejected. -/
theorem C44_column {n m cs w u v : Str} {as : List Expr} {ls : List Line} {last : Line} (hn : FnName n m)
    (ha : Src True 0 (.fargs as) cs) (hw : SpacesTxt w) (hi : n ∉ [c!"infix", c!"infixl", c!"infixr"])
    (hg : Gap u ls last v) (hl : ls ≠ []) (hc : last.spaces = 0) : statement (m ++ cs ++ w ++ c!"=" ++ u) = .err := by
  refine C44_rejected hn ha hw hi fun ls' last' v' hg' => ?_
  obtain ⟨-, h1, h2⟩ := gap_unique hg hg'
  refine .inl ⟨fun e => hl (h1.2 e), (h2 hl).symm.trans ?_⟩
  simp [column, hc]

example : statement (c!"f" ++ c!" x" ++ c!" " ++ c!"=" ++ c!"\n1") = .err :=
  C44_column (.lo ex_f) ex_args spacesTxt_space (by decide) (ls := [⟨0, none⟩]) (last := ⟨0, none⟩) (v := c!"1")
    ⟨rfl, by decide, ex_lines, ex_last 0, .inl ⟨rfl, noGap_of_ne (by decide)⟩⟩ (by simp) rfl

/-- C44: a definition with nothing between the `=` and its body is rejected. -/
theorem C44_adjacent {n m cs w u : Str} {as : List Expr} {c : Char} (hn : FnName n m)
    (ha : Src True 0 (.fargs as) cs) (hw : SpacesTxt w) (hi : n ∉ [c!"infix", c!"infixl", c!"infixr"])
    (hc : c ≠ ' ' ∧ c ≠ '\n' ∧ c ≠ '-') : statement (m ++ cs ++ w ++ c!"=" ++ c :: u) = .err :=
  C44_rejected hn ha hw hi fun _ _ _ hg => (hg.not_noGap (noGap_of_ne hc)).elim

example : statement (c!"f" ++ c!" x" ++ c!" " ++ c!"=" ++ c!"1") = .err :=
  C44_adjacent (.lo ex_f) ex_args spacesTxt_space (by decide) (by decide)

/-- C44: a file is rejected when, after the statements that are read, or at the start, there is something
other than white space that is not a statement. -/
theorem C44_unread {w s w' d : Str} (hw : ∀ c ∈ w, White c) (h : s = d ∨ Reads s (w' ++ d))
    (hw' : ∀ c ∈ w', White c) (hd : ∃ c t, d = c :: t ∧ ¬ White c) (he : statement d = .err) : file (w ++ s) = .err := by
  obtain ⟨y, u, rfl, hy⟩ := hd
  have h5 : multispace0 (y :: u) = .ok [] (y :: u) := multispace0_iff.2 ⟨rfl, by simp, next_cons.2 hy⟩
  rcases h with rfl | h
  · rw [C04_leading hw]
    unfold file statements
    rw [terminated_apply, delimited_apply, h5, andThen_ok, sepNonemptyList_multispace0]
    unfold sepNonemptyList
    rw [he]
    rfl
  · by_cases hne : w' = []
    · subst hne; exact C39_adjacent hw h hy
    rw [C04_leading hw]
    obtain ⟨x, t, xs, h1, h2⟩ := h.run
    have h3 : multispace0 s = .ok [] s := multispace0_iff.2 ⟨rfl, by simp, h.notWhite⟩
    have h4 : multispace (w' ++ y :: u) = .ok w' (y :: u) := multispace_iff.2 ⟨rfl, hne, hw', next_cons.2 hy⟩
    have h6 : multispace0 (w' ++ y :: u) = .ok w' (y :: u) := multispace0_iff.2 ⟨rfl, hw', next_cons.2 hy⟩
    have h7 : sepNonemptyList multispace0 statement s = .ok (x :: xs) (w' ++ y :: u) := by
      rw [sepNonemptyList_multispace0]
      exact (sepNonemptyList_iff cons_multispace cons_statement).2 ⟨x, xs, t, rfl, h1, h2, by
        rw [preceded_apply, h4, andThen_ok, he]⟩
    unfold file statements
    rw [terminated_apply, delimited_apply, h3, andThen_ok, h7, andThen_ok, h6]
    rfl

/-- C44: a file is rejected when a definition, at the start or after other statements, has a body that starts with a
tab or a carriage return. -/
theorem C44_file {w s w' n m cs v u t : Str} {as : List Expr} {c : Char} (hw : ∀ c ∈ w, White c)
    (h : s = m ++ cs ++ v ++ c!"=" ++ u ∨ Reads s (w' ++ (m ++ cs ++ v ++ c!"=" ++ u))) (hw' : ∀ c ∈ w', White c)
    (hn : FnName n m) (ha : Src True 0 (.fargs as) cs) (hv : SpacesTxt v)
    (hi : n ∉ [c!"infix", c!"infixl", c!"infixr"]) (hc : c = '\t' ∨ c = '\r')
    (hu : u = c :: t ∨ ∃ ls last, Gap u ls last (c :: t)) : file (w ++ s) = .err := by
  refine C44_unread hw h hw' ?_ (C44_tab hn ha hv hi hc hu)
  obtain ⟨x, y, rfl, hx⟩ := fnName_head hn
  refine ⟨x, _, rfl, ?_⟩
  rcases hx with rfl | hx | rfl
  · decide
  · rintro (rfl | rfl | rfl | rfl) <;> revert hx <;> decide
  · decide

/-- `import A⏎⏎f x =⏎    1⏎` with carriage returns before the newlines. -/
example : file (c!"" ++ c!"import A\r\n\r\nf x =\r\n    1\r\n") = .err :=
  C44_file (w' := c!"\r\n\r\n") (v := c!" ") (u := c!"\r\n    1\r\n") (t := c!"\n    1\r\n") (by decide)
    (.inr (.last (s := c!"import A\r\n\r\nf x =\r\n    1\r\n") rfl)) (by decide) (.lo ex_f) ex_args spacesTxt_space
    (by decide) (.inr rfl) (.inl rfl)
/-- Without the carriage returns the file is accepted. -/
example : ∃ xs, file c!"import A\n\nf x =\n    1\n" = .ok xs [] := ⟨_, rfl⟩
/-- With carriage returns it is accepted when the body stands on the line of the `=`. -/
example : ∃ xs, file c!"import A\r\n\r\nf x = 1\r\n" = .ok xs [] := ⟨_, rfl⟩
example := C44_unread (w := c!"\n") (s := c!"import A\n\nf =\n") (w' := c!"\n\n") (d := c!"f =\n") (by decide)
  (.inr (.last (s := c!"import A\n\nf =\n") rfl)) (by decide) ⟨'f', c!" =\n", rfl, by decide⟩ rfl
example : statement (c!"f" ++ c!" x" ++ c!" " ++ c!"=" ++ c!")") = .err :=
  C44_rejected (.lo ex_f) ex_args spacesTxt_space (by decide) fun _ _ _ hg => (hg.not_noGap (noGap_of_ne (by decide))).elim

end ElmParser
