import Verif.Proofs.Munch
import Verif.Spec.Reindent
import Verif.Props.Exprs

/-! C59: an expression is read as far as possible. -/
namespace ElmParser
open Spec

namespace Munch

theorem gap_spaces {k : Nat} {y : Str} (h : NoGap y) (j : Nat) (ir : IR) : gap j ir (sp (k + 1) ++ y) = .ok j y := by
  refine gap_iff.2 ⟨[], ⟨k + 1, none⟩, ⟨by simp [gapText, Line.text, commentText], ?_, by simp, by simp [Line.ok],
    .inl ⟨rfl, h⟩⟩, .inl ⟨rfl, rfl⟩⟩
  simp [gapText, Line.text, sp, List.replicate_succ]

theorem gap_lines {ls : List Line} {n : Nat} {y : Str} (hls : ∀ l ∈ ls, l.ok) (hne : ls ≠ []) (h : NoGap y) {j : Nat}
    (hj : j < n % 4294967296) : gap j .GT (gapText ls ⟨n, none⟩ ++ y) = .ok (n % 4294967296) y := by
  refine gap_iff.2 ⟨ls, ⟨n, none⟩, ⟨rfl, ?_, hls, by simp [Line.ok], .inl ⟨rfl, h⟩⟩, .inr ⟨hne, rfl, ?_⟩⟩
  · cases ls with
    | nil => exact absurd rfl hne
    | cons l ls => simp [gapText]
  · simpa [Rel, column] using hj

/-- A term does not start with a space, a newline or a comment. -/
theorem noGap_of_term {j : Nat} {y q : Str} {v : Expr} (h : term j y = .ok v q) : NoGap y := by
  obtain ⟨c, rfl, hc⟩ := termF_sound eSound_expression h
  exact (src_starts hc trivial).noGap

theorem noGap_of_expr {j : Nat} {y q : Str} {v : Expr} (h : expression j y = .ok v q) : NoGap y := by
  obtain ⟨c, rfl, hc⟩ := eSound_expression h
  exact (src_starts hc trivial).noGap

/-- A term that does not start with a bracket does not depend on the indentation. -/
theorem termF_flat {rc rc' : ExprRec} {i j : Nat} {c : Char} {t : Str} (h : c ∉ ['(', '[', '{']) :
    termF rc i (c :: t) = termF rc' j (c :: t) := by
  simp only [List.mem_cons, List.not_mem_nil, or_false, not_or] at h
  unfold termF
  simp only [alt_apply, parens_err h.1, list_err h.2.1, tuple_err h.1, recordUpdate_err h.2.2, record_err h.2.2]

theorem term_of_variable {j : Nat} {y q : Str} {v : Expr} (h : variableP y = .ok v q) : ∃ v' q', term j y = .ok v' q' := by
  unfold term termF
  rcases err_or_ok cons_access y with e | ⟨v', q', e, -⟩
  · exact ⟨v, q, by simp only [alt_apply, e, h, orElse_err, orElse_ok]⟩
  · exact ⟨v', q', by simp only [alt_apply, e, orElse_ok]⟩

theorem variable_of_upper {c : Char} {t : Str} (h : Upper c) : ∃ v q, variableP (c :: t) = .ok v q := by
  have hl : loName (c :: t) = .err := by
    refine loName_err_head ?_ ?_
    · revert h; unfold Upper Lower; omega
    · rintro rfl; revert h; decide
  rcases err_or_ok cons_upDots (c :: t) with e | ⟨v, q, e, -⟩
  · have := upName_err.1 ((sepNonemptyList_err_iff (fun k => cons_char k _) cons_upName).1 e)
    exact absurd h (next_cons.1 this)
  · refine ⟨.Variable v, q, ?_⟩
    unfold variableP upperWithDots
    simp only [alt_apply, lowerCase_err hl, pmap_apply, e, orElse_err, andThen_ok, orElse_ok]

theorem term_of_digit {j : Nat} {c : Char} {t : Str} (h : Digit c) : ∃ v q, term j (c :: t) = .ok v q := by
  have hi : ∃ v q, integer (c :: t) = .ok v q := by
    rcases err_or_ok cons_digit (c :: t) with e | ⟨v, q, e, -⟩
    · simp [digit, takeWhile1, isDigit_iff.2 h] at e
    · have hs : sign (c :: t) = .ok [] (c :: t) := by
        refine sign_none ?_ ?_
        · rintro rfl; revert h; decide
        · rintro rfl; revert h; decide
      exact ⟨.Integer v, q, by unfold integer; simp only [bind_apply, hs, andThen_ok, e]; rfl⟩
  obtain ⟨v, q, hi⟩ := hi
  have hd : ∀ x, ¬ Digit x → c ≠ x := fun x hx e => hx (e ▸ h)
  have hv : variableP (c :: t) = .err := by
    refine variableP_err ?_ ?_ ?_
    · revert h; unfold Digit Lower; omega
    · revert h; unfold Digit Upper; omega
    · simp [hd '_' (by decide), hd '(' (by decide)]
  unfold term termF
  simp only [alt_apply, access_err_of_variable hv, hv, accessFunction_err (hd '.' (by decide)),
    string_err (hd '"' (by decide)), orElse_err, hi]
  rcases err_or_ok cons_float (c :: t) with e | ⟨v', q', e, -⟩
  · exact ⟨v, q, by rw [e]; rfl⟩
  · exact ⟨v', q', by rw [e]; rfl⟩

theorem big (ind : Nat) : ind < max 4294967296 (ind + 1) := by omega

theorem lines_big {m : Nat} (h : 4294967296 ≤ m) (s r : Str) : Lines m s r := fun n _ _ _ _ => by
  have := Nat.mod_lt n (y := 4294967296) (by decide)
  omega

theorem arg_spaces {m k : Nat} {y : Str} (h : ∀ j, ∃ v q, term j y = .ok v q) : Arg m (sp (k + 1) ++ y) := fun j _ => by
  obtain ⟨v, q, e⟩ := h j
  exact ⟨j, y, v, q, gap_spaces (noGap_of_term e) j _, e⟩

theorem arg_lines {ls : List Line} {n : Nat} {y : Str} (hls : ∀ l ∈ ls, l.ok) (hne : ls ≠ [])
    (h : ∀ j, ∃ v q, term j y = .ok v q) : Arg (n % 4294967296) (gapText ls ⟨n, none⟩ ++ y) := fun j hj => by
  obtain ⟨v, q, e⟩ := h j
  exact ⟨_, y, v, q, gap_lines hls hne (noGap_of_term e) hj, e⟩

/-- The lines that start before `r` are the lines of the text before it. -/
theorem lines_of_indent {m : Nat} {c r : Str} (h : ∀ n, Indent c n → n % 4294967296 < m) : Lines m (c ++ r) r := by
  intro n q ⟨a, ha⟩ hq ⟨b, hb⟩
  subst hb
  refine h n ⟨a, b, ?_, ?_⟩
  · have : (a ++ '\n' :: (sp n ++ b)) ++ r = c ++ r := by rw [← ha]; simp
    exact (List.append_cancel_right this).symm
  · cases b with
    | nil => exact next_nil _
    | cons x b => exact next_cons.2 (hq x (b ++ r) rfl)

end Munch
open Munch

/-- C59: an expression is never followed, on the same line, by something that can be read as an argument wherever it
stands. -/
theorem C59_argument {ind k : Nat} {s y : Str} {e : Expr} (h : expression ind s = .ok e (sp (k + 1) ++ y)) :
    ¬ ∀ j, ∃ v q, term j y = .ok v q := fun hy =>
  (munch_expression h (big ind) (lines_big (by omega) _ _)).1 (arg_spaces hy)

/-- C59: what follows an expression on the same line, and does not start with a bracket, is not a term. -/
theorem C59_token {ind k : Nat} {s t : Str} {e : Expr} {c : Char} (hc : c ∉ ['(', '[', '{'])
    (h : expression ind s = .ok e (sp (k + 1) ++ c :: t)) (j : Nat) (v : Expr) (q : Str) : term j (c :: t) ≠ .ok v q :=
  fun ht => C59_argument h fun i => ⟨v, q, by rw [← ht]; exact termF_flat hc⟩

/-- C59: a name on the same line belongs to the expression. -/
theorem C59_name {ind k : Nat} {s n z : Str} {e : Expr} (hn : LoName n) (hz : Next (fun c => ¬ IdentChar c) z) :
    expression ind s ≠ .ok e (sp (k + 1) ++ (n ++ z)) := fun h =>
  C59_argument h fun _ => term_of_variable (alt_eq_ok.2 (.inl (pmap_eq_ok.2 ⟨_, loName_complete hn hz, rfl⟩)))

/-- C59: so does a name that starts with an upper-case letter. -/
theorem C59_constructor {ind k : Nat} {s z : Str} {e : Expr} {c : Char} (hc : Upper c) :
    expression ind s ≠ .ok e (sp (k + 1) ++ c :: z) := fun h => by
  obtain ⟨v, q, e⟩ := variable_of_upper (t := z) hc
  exact C59_argument h fun _ => term_of_variable e

/-- C59: so does a number. -/
theorem C59_number {ind k : Nat} {s z : Str} {e : Expr} {c : Char} (hc : Digit c) :
    expression ind s ≠ .ok e (sp (k + 1) ++ c :: z) := fun h => C59_argument h fun _ => term_of_digit hc

/-- C59: an operator on the same line, with an operand that can be read wherever it stands, belongs to the expression. -/
theorem C59_operator {ind k : Nat} {s o w y : Str} {e : Expr} (ho : InfixOp o) (hw : Whites w) (hne : w ≠ [])
    (h : expression ind s = .ok e (sp (k + 1) ++ (o ++ (w ++ y)))) : ¬ ∀ j, ∃ v q, expression j y = .ok v q := fun hy => by
  refine (munch_expression h (big ind) (lines_big (by omega) _ _)).2 fun j _ => ?_
  obtain ⟨v, q, hv⟩ := hy j
  refine ⟨(.Variable [o], v), q, ?_⟩
  unfold binaryTail
  have hm : multispace (w ++ y) = .ok w y := by
    refine multispace_iff.2 ⟨rfl, hne, hw, ?_⟩
    obtain ⟨c, rfl, hc⟩ := eSound_expression hv
    exact (src_starts hc trivial).notWhite
  rw [bind_apply, gap_spaces (infixOp_noGap ho hw hne) j _, andThen_ok, bind_apply, operatorOrAs_ok ho hw hne, andThen_ok,
    bind_apply, hm, andThen_ok, bind_apply, hv, andThen_ok]
  rfl

/-- C59: on a later line, an argument that stands further to the right than the indentation and than every line of the
expression belongs to it. -/
theorem C59_lines {ind n : Nat} {c y : Str} {e : Expr} {ls : List Line} (hls : ∀ l ∈ ls, l.ok) (hne : ls ≠ [])
    (h : expression ind (c ++ (gapText ls ⟨n, none⟩ ++ y)) = .ok e (gapText ls ⟨n, none⟩ ++ y))
    (hi : ind < n % 4294967296) (hc : ∀ m, Indent c m → m % 4294967296 < n % 4294967296) :
    ¬ ∀ j, ∃ v q, term j y = .ok v q := fun hy =>
  (munch_expression h hi (lines_of_indent hc)).1 (arg_lines hls hne hy)

/-- C59: the same for functions. -/
theorem C59_function {ind k : Nat} {s y : Str} {f : Function} (h : function ind s = .ok f (sp (k + 1) ++ y)) :
    ¬ ∀ j, ∃ v q, term j y = .ok v q := fun hy =>
  (munch_function h (big ind) (lines_big (by omega) _ _)).1 (arg_spaces hy)

theorem C59_function_lines {ind n : Nat} {c y : Str} {f : Function} {ls : List Line} (hls : ∀ l ∈ ls, l.ok) (hne : ls ≠ [])
    (h : function ind (c ++ (gapText ls ⟨n, none⟩ ++ y)) = .ok f (gapText ls ⟨n, none⟩ ++ y))
    (hi : ind < n % 4294967296) (hc : ∀ m, Indent c m → m % 4294967296 < n % 4294967296) :
    ¬ ∀ j, ∃ v q, term j y = .ok v q := fun hy =>
  (munch_function h hi (lines_of_indent hc)).1 (arg_lines hls hne hy)

namespace Munch

/-- A function starts with its name, which could also be an argument. -/
theorem variable_of_function {ind : Nat} {y q : Str} {f : Function} (h : function ind y = .ok f q) :
    ∃ v q', variableP y = .ok v q' := by
  unfold function functionF at h
  simp only [bind_eq_ok, pure_eq_ok] at h
  obtain ⟨o, s1, k1, d, s2, k2, -, -⟩ := h
  rcases opt_eq_ok.1 k1 with ⟨w, k1, -⟩ | ⟨-, -, rfl⟩
  · obtain ⟨r1, _, k3, -⟩ := terminated_eq_ok.1 k1
    unfold functionSignature at k3
    obtain ⟨_, _, k4, -⟩ := bind_eq_ok.1 k3
    exact ⟨_, _, variableP_of_functionName k4⟩
  · unfold functionDefinitionF at k2
    obtain ⟨_, _, k4, -⟩ := bind_eq_ok.1 k2
    exact ⟨_, _, variableP_of_functionName k4⟩

theorem variable_of_entry {ind : Nat} {c : Char} {t q : Str} {l : LetEntry} (hc : c ∉ ['(', '[', '{'])
    (h : letEntry expression ind (c :: t) = .ok l q) : ∃ v q', variableP (c :: t) = .ok v q' := by
  simp only [List.mem_cons, List.not_mem_nil, or_false, not_or] at hc
  unfold letEntry at h
  rcases alt_eq_ok.1 h with h | ⟨-, h⟩
  · unfold letBinding at h
    obtain ⟨v, q', h, -⟩ := bind_eq_ok.1 h
    unfold letBindingTarget at h
    simp only [alt_apply, list_err hc.2.1, tuple_err hc.1, simplifiedRecord_err hc.2.2, orElse_err_right] at h
    exact ⟨v, q', h⟩
  · obtain ⟨f, h, -⟩ := pmap_eq_ok.1 h
    exact variable_of_function h

theorem statement_function {y q : Str} {f : Function} (h : statement y = .ok (.Function f) q) : function 0 y = .ok f q := by
  unfold statement portModuleDeclaration effectModuleDeclaration moduleDeclaration importStatement typeAliasDeclaration
    typeDeclaration portTypeDeclaration portDeclaration infixDeclaration comment lineCommentStatement multiLineComment at h
  simp only [alt_eq_ok, bind_eq_ok, pure_eq_ok, pmap_eq_ok, reduceCtorEq, false_and, and_false, exists_false, false_or,
    or_false, Statement.Function.injEq] at h
  obtain ⟨-, -, -, -, -, -, -, -, _, h, rfl⟩ := h
  exact h

end Munch

/-- C59: after a definition no other definition starts on the same line, after spaces. -/
theorem C59_definition {k : Nat} {s y q : Str} {f g : Function} (h : statement s = .ok (.Function f) (sp (k + 1) ++ y)) :
    statement y ≠ .ok (.Function g) q := fun hy => by
  obtain ⟨v, q', hv⟩ := variable_of_function (statement_function hy)
  exact C59_function (statement_function h) fun _ => term_of_variable hv

example (g : Function) (q : Str) : statement c!"import A" ≠ .ok (.Function g) q :=
  C59_definition (k := 1) (s := c!"f x = x  import A") (f := .mk none (.mk c!"f" [.Variable [c!"x"]] (.Variable [c!"x"]))) rfl

/-- C59: after a definition that stands on one line, the next definition starts in the first column of a later line. -/
theorem C59_column {n : Nat} {c y q : Str} {ls : List Line} {f g : Function} (hls : ∀ l ∈ ls, l.ok) (hne : ls ≠ [])
    (h : statement (c ++ (gapText ls ⟨n, none⟩ ++ y)) = .ok (.Function f) (gapText ls ⟨n, none⟩ ++ y))
    (hc : '\n' ∉ c) (hy : statement y = .ok (.Function g) q) : n % 4294967296 = 0 := by
  obtain ⟨v, q', hv⟩ := variable_of_function (statement_function hy)
  rcases Nat.eq_zero_or_pos (n % 4294967296) with h0 | h0
  · exact h0
  · refine absurd (fun _ => term_of_variable hv) (C59_function_lines hls hne (statement_function h) h0 ?_)
    rintro m ⟨a, r, rfl, -⟩
    exact absurd (by simp) hc

/-- The column of `g`, two lines down, after a comment. -/
example : 0 % 4294967296 = 0 :=
  C59_column (c := c!"f x = x") (y := c!"g = 1") (q := []) (ls := [⟨0, none⟩, ⟨2, some c!" next"⟩])
    (f := .mk none (.mk c!"f" [.Variable [c!"x"]] (.Variable [c!"x"]))) (g := .mk none (.mk c!"g" [] (.Integer c!"1")))
    (by simp [Line.ok]) (by simp) rfl (by decide) rfl

namespace Munch

theorem sp_of_spacesTxt {g : Str} (h : SpacesTxt g) : ∃ k, g = sp (k + 1) := by
  obtain ⟨h1, h2⟩ := h
  refine ⟨g.length - 1, ?_⟩
  have : g.length ≠ 0 := by simpa using h1
  rw [Nat.sub_add_cancel (by omega)]
  exact List.eq_replicate_iff.2 ⟨rfl, h2⟩

/-- A part of a block after the first stands on a line of its own, in the column `i` of the block, or is separated from
the part before it by spaces and then satisfies `P`. -/
def Apart (i : Nat) (k : α → Cat) (P : Str → Prop) (p : Str × Str × α) : Prop :=
  Src False i (k p.2.2) p.2.1 ∧
    ((∃ g' n, p.1 = g' ++ '\n' :: sp n ∧ n % 4294967296 = i) ∨ (SpacesTxt p.1 ∧ P p.2.1))

theorem apart_gap {i i' : Nat} {g : Str} (hg : GapTxt i .EQ i' g) :
    (∃ g' n, g = g' ++ '\n' :: sp n ∧ n % 4294967296 = i) ∨ SpacesTxt g := by
  by_cases hn : '\n' ∈ g
  · obtain ⟨g', n, e, h1, h2⟩ := hg.column hn
    exact .inl ⟨g', n, e, by rw [← h1]; exact h2⟩
  · exact .inr (hg.noLine hn).2

theorem apart_entries {i : Nat} {s r : Str} {ls : List LetEntry}
    (h : Steps (preceded (gap i .EQ) (letEntry expression i)) s ls r) :
    (∃ p l, letEntry expression i p = .ok l s) →
    ∃ ps : List (Str × Str × LetEntry), ls = ps.map (·.2.2) ∧ s = ps.flatMap (fun p => p.1 ++ p.2.1) ++ r ∧
      ∀ p ∈ ps, Apart i .entry (fun c => ∃ x t, c = x :: t ∧ x ∈ ['(', '[', '{']) p := by
  induction h with
  | nil s => exact fun _ => ⟨[], rfl, rfl, by simp⟩
  | @cons s r t l ls h1 _ ih =>
    rintro ⟨p, l0, hp⟩
    obtain ⟨w, r1, k1, k2⟩ := preceded_eq_ok.1 h1
    obtain ⟨ps, rfl, rfl, hps⟩ := ih ⟨r1, l, k2⟩
    obtain ⟨c, rfl, hc⟩ := letEntry_sound eSound_expression k2
    obtain ⟨-, g, rfl, hg⟩ := gapTxt_of_ok k1 (src_ne_nil hc trivial _)
    refine ⟨(g, c, l) :: ps, rfl, by simp, List.forall_mem_cons.2 ⟨⟨hc, ?_⟩, hps⟩⟩
    rcases apart_gap hg with h | h
    · exact .inl h
    · refine .inr ⟨h, ?_⟩
      obtain ⟨k, hk⟩ := sp_of_spacesTxt h
      cases c with
      | nil => exact absurd rfl (src_starts hc trivial).ne_nil
      | cons x c =>
        refine ⟨x, c, rfl, Decidable.byContradiction fun hx => ?_⟩
        obtain ⟨v, q, hv⟩ := variable_of_entry hx k2
        rw [hk] at hp
        exact (munch_entry hp (big i) (lines_big (by omega) _ _)).1 (arg_spaces fun _ => term_of_variable hv)

theorem munch_branch {m ind : Nat} {b : Expr × Expr} {s r : Str} (h : caseBranch expression ind s = .ok b r)
    (hi : ind < m) (hl : Lines m s r) : ¬ Arg m r ∧ ¬ Op m r := by
  unfold caseBranch at h
  simp only [bind_eq_ok, pure_eq_ok] at h
  obtain ⟨p, t1, j1, i4, t2, j2, _, t3, j3, i5, t4, j4, b, t5, j5, -, rfl⟩ := h
  have hl3 : Lines m t3 t5 := hl.mono ((x_tag j3).1.trans ((x_gap j2).1.trans (x_expr j1).1))
  exact munch_expression j5 (gap_below j4 (x_expr j5).1 hi hl3) (hl3.mono (x_gap j4).1)

/-- An expression starts with a term, a keyword or a backslash. -/
theorem expr_start {j : Nat} {x : Char} {t q : Str} {e : Expr} (h : expression j (x :: t) = .ok e q) :
    (∃ v q', term j (x :: t) = .ok v q') ∨ x = '\\' ∨
      ∃ w ∈ [c!"let", c!"case", c!"if"], ∃ u, x :: t = w ++ u ∧ q <:+ u := by
  have he : ∀ k i, Good k (expression i) := fun k i => (cons_expression k i).good
  rw [expression_unfold] at h
  simp only [expressionF, alt_eq_ok] at h
  rcases h with h | ⟨-, h | ⟨-, h | ⟨-, h | ⟨-, h⟩⟩⟩⟩
  · left
    unfold binary at h
    obtain ⟨a, s1, k1, -⟩ := bind_eq_ok.1 h
    rw [Rn.applicationOrVar_eq, pmap_eq_ok] at k1
    obtain ⟨v, k1, -⟩ := k1
    obtain ⟨v, vs, r1, -, h1, -⟩ := sepNonemptyList_steps k1
    exact ⟨v, r1, h1⟩
  · right; right
    unfold letExpression at h
    obtain ⟨a, s1, k1, k2⟩ := bind_eq_ok.1 h
    refine ⟨c!"let", by simp, s1, (tag_eq_ok.1 k1).2, ok_of_good (fun k => ?_) k2⟩
    exact good_bind (cons_gap k j _).good fun i =>
      good_bind ((cons_letBindings (he k) i).good.mono (by omega)) fun _ =>
      good_bind (cons_gap k j _).good fun _ => good_bind (cons_tag k _ _).good fun _ =>
      good_bind (cons_gap k j _).good fun _ => good_bind (he k j) fun _ => good_pure _ _
  · right; right
    unfold caseExpression at h
    obtain ⟨a, s1, k1, k2⟩ := bind_eq_ok.1 h
    refine ⟨c!"case", by simp, s1, (tag_eq_ok.1 k1).2, ok_of_good (fun k => ?_) k2⟩
    exact good_bind (cons_gap k j _).good fun _ =>
      good_bind (he k j) fun _ => good_bind (cons_gap k j _).good fun _ =>
      good_bind (cons_tag k _ _).good fun _ => good_bind (cons_gap k j _).good fun i =>
      good_bind (cons_casesP (he k) i).good fun _ => good_pure _ _
  · right; right
    unfold ifExpression at h
    obtain ⟨a, s1, k1, k2⟩ := bind_eq_ok.1 h
    refine ⟨c!"if", by simp, s1, (tag_eq_ok.1 k1).2, ok_of_good (fun k => ?_) k2⟩
    exact good_bind (cons_gap k j _).good fun _ =>
      good_bind (he k j) fun _ => good_bind (cons_gap k j _).good fun _ =>
      good_bind (cons_tag k _ _).good fun _ => good_bind (cons_gap k j _).good fun i =>
      good_bind (he k i) fun _ => good_bind (cons_gap k j _).good fun _ =>
      good_bind (cons_tag k _ _).good fun _ => good_bind (cons_gap k j _).good fun j =>
      good_bind (he k j) fun _ => good_pure _ _
  · right; left
    unfold lambda at h
    obtain ⟨a, s1, k1, -⟩ := bind_eq_ok.1 h
    have := (char_eq_ok.1 k1).2
    exact (List.cons.inj this).1

/-- What a branch on the line of another may start with. -/
def BranchStart (c : Str) : Prop :=
  (∃ x t, c = x :: t ∧ x ∈ ['(', '[', '{', '\\']) ∨ ∃ w ∈ [c!"let", c!"case", c!"if"], w <+: c

theorem apart_branches {i : Nat} {s r : Str} {bs : List (Expr × Expr)}
    (h : Steps (preceded (gap i .EQ) (caseBranch expression i)) s bs r) :
    (∃ p b, caseBranch expression i p = .ok b s) →
    ∃ ps : List (Str × Str × (Expr × Expr)), bs = ps.map (·.2.2) ∧ s = ps.flatMap (fun p => p.1 ++ p.2.1) ++ r ∧
      ∀ p ∈ ps, Apart i .branch BranchStart p := by
  induction h with
  | nil s => exact fun _ => ⟨[], rfl, rfl, by simp⟩
  | @cons s r t l ls h1 _ ih =>
    rintro ⟨p, l0, hp⟩
    obtain ⟨w, r1, k1, k2⟩ := preceded_eq_ok.1 h1
    obtain ⟨ps, rfl, rfl, hps⟩ := ih ⟨r1, l, k2⟩
    obtain ⟨c, rfl, hc⟩ := caseBranch_sound eSound_expression k2
    obtain ⟨-, g, rfl, hg⟩ := gapTxt_of_ok k1 (src_ne_nil hc trivial _)
    refine ⟨(g, c, l) :: ps, rfl, by simp, List.forall_mem_cons.2 ⟨⟨hc, ?_⟩, hps⟩⟩
    rcases apart_gap hg with h | h
    · exact .inl h
    · refine .inr ⟨h, ?_⟩
      obtain ⟨k, hk⟩ := sp_of_spacesTxt h
      rw [hk] at hp
      have hm := (munch_branch hp (big i) (lines_big (by omega) _ _)).1
      cases c with
      | nil => exact absurd rfl (src_starts hc trivial).ne_nil
      | cons x c =>
        by_cases hx : x ∈ ['(', '[', '{', '\\']
        · exact .inl ⟨x, c, rfl, hx⟩
        · right
          simp only [List.mem_cons, List.not_mem_nil, or_false, not_or] at hx
          unfold caseBranch at k2
          obtain ⟨a, q, k3, k4⟩ := bind_eq_ok.1 k2
          rcases expr_start k3 with ⟨v, q', hv⟩ | hb | ⟨w, hw, u, e1, e2⟩
          · refine absurd (arg_spaces fun j => ⟨v, q', ?_⟩) hm
            rw [← hv]
            exact termF_flat (by simp [hx])
          · exact absurd hb hx.2.2.2
          · refine ⟨w, hw, ?_⟩
            have hq := ok_of_good (fun k => good_bind (cons_gap k i _).good fun _ => good_bind (cons_tag k _ _).good fun _ =>
              good_bind (cons_gap k i _).good fun i => good_bind (cons_expression k i).good fun _ => good_pure _ _) k4
            obtain ⟨z, hz⟩ := hq.trans e2
            refine ⟨z, List.append_cancel_right (bs := ps.flatMap (fun p => p.1 ++ p.2.1) ++ t) ?_⟩
            rw [List.append_assoc, hz]
            exact e1.symm

end Munch

/-- C59: an entry of a `let` stands on a line of its own, in the column of the first, or starts with a bracket. -/
theorem C59_let {ind : Nat} {t r : Str} {e : Expr} (ht : Next (fun c => ¬ IdentChar c) t)
    (h : expression ind (c!"let" ++ t) = .ok e r) :
    ∃ (i : Nat) (g c tl : Str) (l : LetEntry) (ps : List (Str × Str × LetEntry)) (b : Expr),
      e = .Let (l :: ps.map (·.2.2)) b ∧ t = g ++ c ++ ps.flatMap (fun p => p.1 ++ p.2.1) ++ tl ∧
      BlockStart ind i g ∧ Src False i (.entry l) c ∧
      ∀ p ∈ ps, Apart i .entry (fun c => ∃ x t, c = x :: t ∧ x ∈ ['(', '[', '{']) p := by
  rw [expression_let ht] at h
  unfold letExpression letBindings at h
  simp only [bind_eq_ok, pure_eq_ok] at h
  obtain ⟨_, s1, k1, i, s2, k2, ls, s3, k3, i2, s4, k4, _, s5, k5, i3, s6, k6, b, s7, k7, rfl, rfl⟩ := h
  obtain ⟨-, e1⟩ := tag_eq_ok.1 k1
  obtain rfl := List.append_cancel_left e1
  obtain ⟨l, ls, s8, rfl, k8, k9⟩ := sepNonemptyList_steps k3
  obtain ⟨ps, rfl, rfl, hps⟩ := apart_entries k9 ⟨_, _, k8⟩
  obtain ⟨c, rfl, hc⟩ := letEntry_sound eSound_expression k8
  obtain ⟨-, g1, rfl, hg1⟩ := gapTxt_of_ok k2 (src_ne_nil hc trivial _)
  exact ⟨i, g1, c, s3, l, ps, b, rfl, by simp, hg1.blockStart, hc, hps⟩
example := C59_let (ind := 0) (t := c!"\n  x = 1\n  y =\n    x\nin x + y") (next_cons.2 (by decide)) rfl

/-- C59: a branch of a `case` stands on a line of its own, in the column of the first, or starts with a bracket, a
backslash or one of the words `let`, `case`, `if`. -/
theorem C59_case {ind : Nat} {t r : Str} {e : Expr} (ht : Next (fun c => ¬ IdentChar c) t)
    (h : expression ind (c!"case" ++ t) = .ok e r) :
    ∃ (i : Nat) (hd g c : Str) (a : Expr) (b : Expr × Expr) (ps : List (Str × Str × (Expr × Expr))),
      e = .Case a (b :: ps.map (·.2.2)) ∧ t = hd ++ c!"of" ++ g ++ c ++ ps.flatMap (fun p => p.1 ++ p.2.1) ++ r ∧
      BlockStart ind i g ∧ Src False i (.branch b) c ∧ ∀ p ∈ ps, Apart i .branch BranchStart p := by
  rw [expression_case ht] at h
  unfold caseExpression casesP at h
  simp only [bind_eq_ok, pure_eq_ok] at h
  obtain ⟨_, s1, k1, i1, s2, k2, a, s3, k3, i2, s4, k4, _, s5, k5, i, s6, k6, bs, s7, k7, rfl, rfl⟩ := h
  obtain ⟨-, e1⟩ := tag_eq_ok.1 k1
  obtain rfl := List.append_cancel_left e1
  obtain ⟨b, bs, s8, rfl, k8, k9⟩ := sepNonemptyList_steps k7
  obtain ⟨ps, rfl, rfl, hps⟩ := apart_branches k9 ⟨_, _, k8⟩
  obtain ⟨c, rfl, hc⟩ := caseBranch_sound eSound_expression k8
  obtain ⟨-, g, rfl, hg⟩ := gapTxt_of_ok k6 (src_ne_nil hc trivial _)
  obtain ⟨-, rfl⟩ := tag_eq_ok.1 k5
  obtain ⟨z, hz⟩ := (x_gap k4).1.trans ((x_expr k3).1.trans (x_gap k2).1)
  exact ⟨i, z, g, c, a, b, ps, rfl, by rw [← hz]; simp, hg.blockStart, hc, hps⟩
example := C59_case (ind := 0) (t := c!" x of\n  A ->\n    1\n  _ -> 2\nz") (next_cons.2 (by decide)) rfl

/-! ### Types -/

namespace Munch

theorem many0Loop_stop {p : Parser α} (hp : ∀ k, Cons k p) {n : Nat} {s r : Str} {vs : List α}
    (h : many0Loop p n s = .ok vs r) : ∀ v q, p r ≠ .ok v q := by
  induction n generalizing s vs with
  | zero => simp [many0Loop] at h
  | succ n ih =>
    simp only [many0Loop] at h
    split at h
    · next e =>
      simp only [Res.ok.injEq] at h
      obtain ⟨-, rfl⟩ := h
      intro v q e'; rw [e] at e'; cases e'
    · cases h
    · cases h
    · next v t e =>
      have l1 := (ok_of_cons hp e).2
      split at h
      · next e' => subst e'; omega
      · obtain ⟨ws, t', h1, h2⟩ := andThen_eq_ok.1 h
        simp only [Res.ok.injEq] at h2
        obtain ⟨-, rfl⟩ := h2
        exact ih h1

theorem cons_tyArg (k ind : Nat) : Cons k (typeArg tyRec ind) :=
  (cons_typeArg ⟨fun i => (cons_type_ k i).good, fun i => (cons_typeAnnotation k i).good⟩ ind).mono (by omega)

theorem param_ok {i : Nat} {c : Char} {t : Str} (h : Lower c ∨ Upper c) : ∃ v q, typeParameter tyRec i (c :: t) = .ok v q := by
  unfold typeParameter
  rcases err_or_ok cons_typeVariable (c :: t) with e | ⟨v, q, e, -⟩
  · rcases err_or_ok cons_typeConstant (c :: t) with e' | ⟨v, q, e', -⟩
    · exfalso
      rcases h with h | h
      · simp [typeVariable, bind_apply, reMatches, reHeadTail, isLower_iff.2 h, index, pure_apply] at e
      · unfold typeConstant at e'
        rw [pmap_apply] at e'
        rcases err_or_ok cons_upDots (c :: t) with e2 | ⟨v, q, e2, -⟩
        · have := upName_err.1 ((sepNonemptyList_err_iff (fun k => cons_char k _) cons_upName).1 e2)
          exact absurd h (next_cons.1 this)
        · rw [e2] at e'; cases e'
    · exact ⟨v, q, by simp only [alt_apply, e, e', orElse_err, orElse_ok]⟩
  · exact ⟨v, q, by simp only [alt_apply, e, orElse_ok]⟩

theorem constructor_stop {ind : Nat} {s r : Str} {t : Ty} (h : typeConstructor ind s = .ok t r) :
    ∀ i c z, gap ind .GT r = .ok i (c :: z) → ¬ Lower c ∧ ¬ Upper c := by
  intro i c z hg
  unfold typeConstructor typeConstructorF at h
  simp only [bind_eq_ok, pure_eq_ok] at h
  obtain ⟨_, s1, k1, ts, s2, k2, -, rfl⟩ := h
  have := many0Loop_stop (fun k => cons_tyArg k ind) k2
  by_cases hc : Lower c ∨ Upper c
  · obtain ⟨v, q, e⟩ := param_ok (i := i) (t := z) hc
    refine absurd ?_ (this v q)
    unfold typeArg
    rw [bind_apply, hg, andThen_ok]
    exact e
  · exact not_or.1 hc

theorem constructor_ok {ind : Nat} {c : Char} {t : Str} (h : Upper c) : ∃ v q, typeConstructor ind (c :: t) = .ok v q := by
  rcases err_or_ok (fun k => cons_typeConstructor k ind) (c :: t) with e | ⟨v, q, e, -⟩
  · exfalso
    unfold typeConstructor typeConstructorF at e
    rw [bind_apply] at e
    rcases err_or_ok cons_upDots (c :: t) with e2 | ⟨v, q, e2, -⟩
    · have := upName_err.1 ((sepNonemptyList_err_iff (fun k => cons_char k _) cons_upName).1 e2)
      exact absurd h (next_cons.1 this)
    · rw [e2, andThen_ok, bind_apply] at e
      obtain ⟨vs, r, e3, -⟩ := many0_total (fun k => cons_tyArg k ind) q
      rw [e3] at e
      cases e
  · exact ⟨v, q, e⟩

end Munch

theorem Munch.statement_type {y q : Str} {t : Ty} {ts : List Ty} (h : statement y = .ok (.TypeDeclaration t ts) q) :
    typeDeclaration 0 y = .ok (.TypeDeclaration t ts) q := by
  unfold statement portModuleDeclaration effectModuleDeclaration moduleDeclaration importStatement typeAliasDeclaration
    portTypeDeclaration portDeclaration infixDeclaration comment lineCommentStatement multiLineComment at h
  simp only [alt_eq_ok, bind_eq_ok, pure_eq_ok, pmap_eq_ok, reduceCtorEq, false_and, and_false, exists_false, false_or,
    or_false] at h
  exact h.2.2.2.2.2

/-- C59: a function type goes on as long as there are arrows. -/
theorem C59_arrow {ind : Nat} {s w w' y : Str} {t : Ty} (hw : SpaceNl w) (hw' : SpaceNl w')
    (h : typeAnnotation ind s = .ok t (w ++ (c!"->" ++ (w' ++ y)))) (u : Ty) (q : Str) : type_ ind y ≠ .ok u q := fun hy => by
  rw [typeAnnotation_unfold] at h
  obtain ⟨v, vs, -, h⟩ := typeAnnotationF_eq_ok.1 h
  obtain ⟨c, rfl, hc⟩ := type_sound hy
  have a1 : spacesAndNewlines (w ++ (c!"->" ++ (w' ++ (c ++ q)))) = _ :=
    spacesAndNewlines_iff.2 ⟨rfl, hw, next_cons.2 (by decide)⟩
  have a2 : spacesAndNewlines (w' ++ (c ++ q)) = _ :=
    spacesAndNewlines_iff.2 ⟨rfl, hw', (ty_head_noGap (r := q) hc trivial).1⟩
  refine sepNonemptyList_stop cons_arrowSep (fun k => cons_typeF' k ind) h c!"->" (c ++ q) ?_ u q (by rw [← type_unfold]; exact hy)
  · unfold arrowSep
    rw [delimited_apply, a1, andThen_ok, tag_append, andThen_ok, a2, andThen_ok]

/-- C59: a type constructor takes all the names that follow as arguments: on the same line, or on a line that is indented
by more than the given indentation. -/
theorem C59_typeArgument {ind n : Nat} {s z : Str} {t : Ty} {x c : Char} {ls : List Line} (hx : Upper x)
    (hls : ∀ l ∈ ls, l.ok) (hne : (ls = [] ∧ n ≠ 0) ∨ (ls ≠ [] ∧ ind < n % 4294967296)) (hc : Lower c ∨ Upper c) :
    type_ ind (x :: s) ≠ .ok t (gapText ls ⟨n, none⟩ ++ c :: z) := fun h => by
  have h1 : ∃ t', typeConstructor ind (x :: s) = .ok t' (gapText ls ⟨n, none⟩ ++ c :: z) := by
    obtain ⟨v, q, e⟩ := constructor_ok (ind := ind) (t := s) hx
    rw [type_unfold] at h
    unfold typeF at h
    unfold typeConstructor at e ⊢
    rcases alt_eq_ok.1 h with h | ⟨h, -⟩
    · exact ⟨_, h⟩
    · rw [e] at h; cases h
  obtain ⟨t', h1⟩ := h1
  have hz : NoGap (c :: z) := by
    refine noGap_of_ne ?_
    have : ∀ d, ¬ (Lower d ∨ Upper d) → c ≠ d := fun d hd e => hd (e ▸ hc)
    exact ⟨this ' ' (by decide), this '\n' (by decide), this '-' (by decide)⟩
  have : ∃ i, gap ind .GT (gapText ls ⟨n, none⟩ ++ c :: z) = .ok i (c :: z) := by
    rcases hne with ⟨rfl, hn⟩ | ⟨h, h'⟩
    · obtain ⟨k, rfl⟩ := Nat.exists_eq_succ_of_ne_zero hn
      have := gap_spaces (k := k) hz ind .GT
      refine ⟨ind, ?_⟩
      simpa [gapText, Line.text, commentText] using this
    · exact ⟨_, gap_lines hls h hz h'⟩
  obtain ⟨i, hi⟩ := this
  have := constructor_stop h1 i c z hi
  exact hc.elim this.1 this.2

/-- C59: a type declaration goes on as long as there are constructors. -/
theorem C59_alternative {k k' : Nat} {s z : Str} {x : Char} {t : Ty} {ts : List Ty} (hx : Upper x) :
    statement s ≠ .ok (.TypeDeclaration t ts) (sp (k + 1) ++ '|' :: (sp (k' + 1) ++ x :: z)) := fun h => by
  have h := statement_type h
  unfold typeDeclaration at h
  simp only [bind_eq_ok, pure_eq_ok] at h
  obtain ⟨_, s1, -, _, s2, -, _, s3, -, i, s4, -, _, s5, -, _, s6, -, ts, s7, k7, -, rfl⟩ := h
  obtain ⟨v, q, e⟩ := constructor_ok (ind := i) (t := z) hx
  refine sepNonemptyList_stop (fun k => ?_) (fun k => cons_typeConstructor k i) k7 '|' (x :: z) ?_ v q e
  · exact (cons_delimited (cons_gap _ i .GTE) (cons_char k '|').good (cons_spaces k).good).mono (Nat.le_succ k)
  · have hsx : x ≠ ' ' := by rintro rfl; revert hx; decide
    have a1 := gap_spaces (k := k) (y := '|' :: (sp (k' + 1) ++ x :: z)) (noGap_of_ne (by decide)) i .GTE
    have a2 : spaces (sp (k' + 1) ++ x :: z) = .ok (sp (k' + 1)) (x :: z) :=
      spaces_iff.2 ⟨rfl, by simp [sp, List.replicate_succ], fun c hc => List.eq_of_mem_replicate hc, next_cons.2 hsx⟩
    rw [delimited_apply, a1, andThen_ok, char_cons, andThen_ok, a2, andThen_ok]

/-! ### Cases -/

-- A closed expression followed by a keyword: the rest starts with a space, and what follows is not a term.
example : expression 0 c!"f x then" = .ok (.Application (.Variable [c!"f"]) (.Variable [c!"x"])) (sp (0 + 1) ++ c!"then") := rfl
example : expression 0 c!"f x = 1" = .ok (.Application (.Variable [c!"f"]) (.Variable [c!"x"])) (sp (0 + 1) ++ c!"= 1") := rfl
-- Without `∀ j` the claim is false: a list that is not indented far enough is no argument here, but it is elsewhere.
example : ∃ e, expression 6 c!"b [\n  x] = c" = .ok e (sp (0 + 1) ++ c!"[\n  x] = c") := ⟨_, rfl⟩
example : term 0 c!"[\n  x] = c" = .ok (.List [.Variable [c!"x"]]) c!" = c" := rfl
-- The operand of an operator is missing, so the operator is left over.
example : expression 0 c!"a + )" = .ok (.Variable [c!"a"]) (sp (0 + 1) ++ (c!"+" ++ (c!" " ++ c!")"))) := rfl
-- A later line further to the left, and one further to the right.
example : expression 4 c!"a\n  b" = .ok (.Variable [c!"a"]) c!"\n  b" := rfl
example : expression 4 c!"a\n      then" = .ok (.Variable [c!"a"]) (gapText [⟨0, none⟩] ⟨6, none⟩ ++ c!"then") := rfl
example : expression 4 c!"a\n      b" = .ok (.Application (.Variable [c!"a"]) (.Variable [c!"b"])) [] := rfl
-- The lines of the expression matter: `z` is an argument for the outer indentation but not for the branch.
example : ∃ e, expression 0 c!"case a of\n    b -> c\n  z" = .ok e c!"\n  z" := ⟨_, rfl⟩
-- Two definitions on one line are possible with a tab.
example : ∃ f g, statement c!"f = 1\tg = 2" = .ok (.Function f) c!"\tg = 2" ∧
    statement c!"g = 2" = .ok (.Function g) [] := ⟨_, _, rfl, rfl⟩
example : ∃ x y, file c!"f = 1\tg = 2" = .ok [.Function x, .Function y] [] := ⟨_, _, rfl⟩
example : file c!"f = 1 g = 2" = .err := rfl
example : file c!"f = 1\n g = 2" = .err := rfl
-- The hypotheses of `C59_definition` and `C59_column`.
example : ∃ f, statement c!"f = 1 import A" = .ok (.Function f) (sp (0 + 1) ++ c!"import A") := ⟨_, rfl⟩
example : ∃ f g, statement (c!"f = 1" ++ (gapText [⟨0, none⟩] ⟨0, none⟩ ++ c!"g = 2")) =
      .ok (.Function f) (gapText [⟨0, none⟩] ⟨0, none⟩ ++ c!"g = 2") ∧
    statement c!"g = 2" = .ok (.Function g) [] := ⟨_, _, rfl, rfl⟩
-- Several entries and branches, also the odd ones on one line.
example : ∃ a b c, expression 0 (c!"let" ++ c!"\n  x = 1\n  y = x\nin y") = .ok (.Let [a, b] c) [] := ⟨_, _, _, rfl⟩
example : expression 0 (c!"let" ++ c!" a =\n      b [\n  x] = c\nin a") =
    .ok (.Let [.LetBinding (.Variable [c!"a"]) (.Variable [c!"b"]),
      .LetBinding (.List [.Variable [c!"x"]]) (.Variable [c!"c"])] (.Variable [c!"a"])) [] := rfl
example : expression 0 (c!"let" ++ c!" a = 1 b = 2 in b") = .err := rfl
example : expression 0 (c!"case" ++ c!" a of b -> c \\x -> e -> f") =
    .ok (.Case (.Variable [c!"a"]) [(.Variable [c!"b"], .Variable [c!"c"]),
      (.Lambda [.Variable [c!"x"]] (.Variable [c!"e"]), .Variable [c!"f"])]) [] := rfl

-- Types: a rest after spaces, after a newline, and one that looks like an arrow but is none.
example : type_ 0 c!"A b = c" = .ok (.TypeConstructor [c!"A"] [.TypeVariable c!"b"]) c!" = c" := rfl
example : type_ 2 c!"A\n b" = .ok (.TypeConstructor [c!"A"] []) (gapText [⟨0, none⟩] ⟨1, none⟩ ++ c!"b") := rfl
example : type_ 2 c!"A\n   b" = .ok (.TypeConstructor [c!"A"] [.TypeVariable c!"b"]) [] := rfl
example : typeAnnotation 0 c!"a -> )" = .ok (.TypeVariable c!"a") (c!" " ++ (c!"->" ++ (c!" " ++ c!")"))) := rfl
-- A type variable takes no arguments, so the first letter of the type matters.
example : type_ 0 c!"a b" = .ok (.TypeVariable c!"a") (gapText [] ⟨1, none⟩ ++ c!"b") := rfl
example : statement c!"type A = B | c" =
    .ok (.TypeDeclaration (.TypeConstructor [c!"A"] []) [.TypeConstructor [c!"B"] []])
      (sp (0 + 1) ++ '|' :: (sp (0 + 1) ++ c!"c")) := rfl
-- Each theorem of C59, applied.
example := C59_argument (ind := 0) (k := 0) (s := c!"f x then") (y := c!"then") (e := _) rfl
example := C59_token (ind := 0) (k := 0) (s := c!"f x then y") (c := 't') (t := c!"hen y") (e := _) (by decide) rfl
example := C59_name (ind := 0) (k := 0) (s := c!"f x y z") (n := c!"y") (z := c!" z") ex_y (next_cons.2 (by decide))
  (e := .Application (.Variable [c!"f"]) (.Variable [c!"x"]))
example := C59_constructor (ind := 0) (k := 0) (s := c!"f x Nothing") (z := c!"othing") (c := 'N') (by decide)
  (e := .Application (.Variable [c!"f"]) (.Variable [c!"x"]))
example := C59_number (ind := 0) (k := 0) (s := c!"f x 10") (z := c!"0") (c := '1') (by decide)
  (e := .Application (.Variable [c!"f"]) (.Variable [c!"x"]))
example := C59_operator (ind := 0) (k := 0) (s := c!"f x + )") (o := c!"+") (w := c!" ") (y := c!")") (e := _) (.inr ⟨⟨by simp, by decide⟩, by simp⟩)
  (by simp [Whites, White]) (by simp) rfl
example := C59_lines (ind := 0) (n := 2) (c := c!"f x") (y := c!"of") (e := _) (ls := [⟨0, none⟩]) (by simp [Line.ok]) (by simp) rfl
  (by decide) (by rintro m ⟨a, r, h, -⟩; exact absurd (h ▸ List.mem_append_right a (.head _) : '\n' ∈ c!"f x") (by decide))
example := C59_function (ind := 0) (k := 0) (s := c!"f x = x then") (y := c!"then") (f := _) rfl
example := C59_function_lines (ind := 0) (n := 2) (c := c!"f x = x") (y := c!"of") (f := _) (ls := [⟨0, none⟩]) (by simp [Line.ok])
  (by simp) rfl (by decide)
  (by rintro m ⟨a, r, h, -⟩; exact absurd (h ▸ List.mem_append_right a (.head _) : '\n' ∈ c!"f x = x") (by decide))
example := C59_arrow (ind := 0) (s := c!"a -> )") (w := c!" ") (w' := c!" ") (y := c!")") (t := _) ⟨by simp, by decide⟩ ⟨by simp, by decide⟩ rfl
example := C59_typeArgument (ind := 0) (n := 1) (s := c!"ist a b") (z := c!"") (t := .TypeConstructor [c!"List"] [.TypeVariable c!"a"])
  (x := 'L') (c := 'b') (ls := []) (by decide) (by simp) (.inl ⟨rfl, by decide⟩) (.inl (by decide))
example := C59_alternative (k := 0) (k' := 0) (s := c!"type A = B | C") (z := []) (x := 'C') (t := .TypeConstructor [c!"A"] [])
  (ts := [.TypeConstructor [c!"B"] []]) (by decide)

end ElmParser
