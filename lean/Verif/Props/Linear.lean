import Verif.Proofs.LinearFile
import Verif.Props.Cost

/-! C61: exponential backtracking needs parentheses, `let` or `case`. -/
namespace ElmParser
open Spec

/-- C61: a text without opening parentheses and the letter sequences `let` and `case` is read with at most one call of
`expression` per character, and one more, whatever lists, records, record updates, lambdas, conditionals and operators it
contains or begins. -/
theorem C61_linear {s : Str} (ind : Nat) (h : Straight s) : Trace.calls (Trace.expression ind s) ≤ s.length + 1 :=
  Trace.calls_straight ind h

/-- C61: the same for functions. -/
theorem C61_function {s : Str} (ind : Nat) (h : Straight s) : Trace.calls (Trace.function ind s) ≤ s.length + 1 :=
  Trace.calls_function ind h

/-- C61: such a file takes at most quadratically many calls. -/
theorem C61_file {s : Str} (h : Straight s) : Trace.calls (Trace.file s) ≤ (s.length + 1) ^ 2 := by
  rw [Nat.pow_two]
  exact Trace.calls_file h

/-- A way to show that a word does not occur. -/
theorem not_infix {w s : Str} {c : Char} (hw : c ∈ w) (hs : c ∉ s) : ¬ w <:+: s := fun h => hs (h.subset hw)

/-- Such texts: nested lists in an unfinished record, a lambda and a conditional. -/
theorem straight_example : Straight c!"\\x y -> if x then [{ a = [1, { b | d = [y] }], c = " where
  paren := by decide
  let_ := not_infix (c := 'l') (by decide) (by decide)
  case := not_infix (c := 's') (by decide) (by decide)

example (ind : Nat) : Trace.calls (Trace.expression ind c!"\\x y -> if x then [{ a = [1, { b | d = [y] }], c = ") ≤ 52 :=
  C61_linear ind straight_example

example : Straight c!"import A as B\n\nx : Int -> { a : Int }\nx y = [{ a = y }]\n\nz = \\w -> [w, x { w | a = 1 } + 2]\n" where
  paren := by decide
  let_ := not_infix (c := 'l') (by decide) (by decide)
  case := not_infix (c := 'c') (by decide) (by decide)

theorem gap_blank (ind : Nat) (ir : IR) {t : Str} (h : NoGap t) : gap ind ir (' ' :: t) = .ok ind t :=
  (gap_of_gap (gap_space_of_noGap h) ind ir).2 ⟨rfl, .inl ⟨rfl, rfl⟩⟩

theorem noGap_eqSign (t : Str) : NoGap ('=' :: t) := noGap_of_ne (by decide)
theorem noGap_x (t : Str) : NoGap ('x' :: t) := noGap_of_ne (by decide)

theorem letBinding_open {ind : Nat} {t : Str} (ht : NoGap t) (h : expression ind t = .err) :
    letBinding expression ind (c!"x = " ++ t) = .err := by
  unfold letBinding
  have hv : letBindingTarget expression ind (c!"x = " ++ t) = .ok (.Variable [c!"x"]) (c!" = " ++ t) := rfl
  rw [bind_apply, hv, andThen_ok, bind_apply]
  have := gap_blank ind .GTE (noGap_eqSign (' ' :: t))
  show Res.andThen (gap ind .GTE (' ' :: '=' :: ' ' :: t)) _ = _
  rw [this, andThen_ok, bind_apply, char_cons, andThen_ok, bind_apply, gap_blank ind .GTE ht, andThen_ok, bind_apply, h]
  rfl

theorem signature_open (ind : Nat) (t : Str) : 
    opt (terminated (functionSignature ind) (newLineAndSameIndent ind)) (c!"x = " ++ t) = .ok none (c!"x = " ++ t) := rfl

theorem args_open (ind : Nat) (t : Str) :
    many0 (preceded spaces (termF expression ind)) (c!" = " ++ t) = .ok [] (c!" = " ++ t) := by
  rfl

theorem function_open {ind : Nat} {t : Str} (ht : NoGap t) (h : expression ind t = .err) :
    functionF expression ind (c!"x = " ++ t) = .err := by
  unfold functionF
  rw [bind_apply, signature_open, andThen_ok, bind_apply]
  unfold functionDefinitionF
  have hv : functionNameOrOp (c!"x = " ++ t) = .ok c!"x" (c!" = " ++ t) := rfl
  have hs : spaces (c!" = " ++ t) = .ok c!" " ('=' :: ' ' :: t) := rfl
  rw [bind_apply, hv, andThen_ok, bind_apply, args_open, andThen_ok, bind_apply, hs, andThen_ok, bind_apply, char_cons, andThen_ok,
    bind_apply, gap_blank ind .GT ht, andThen_ok, bind_apply, h]
  rfl

theorem letExpression_open {ind : Nat} {t : Str} (ht : NoGap t) (h : expression ind t = .err) :
    letExpression expression ind (c!"let x = " ++ t) = .err := by
  unfold letExpression
  have hl : tag c!"let" (c!"let x = " ++ t) = .ok c!"let" (' ' :: 'x' :: ' ' :: '=' :: ' ' :: t) := rfl
  rw [bind_apply, hl, andThen_ok, bind_apply, gap_blank ind .GTE (noGap_x _), andThen_ok, bind_apply]
  have hb : letBindings expression ind ('x' :: ' ' :: '=' :: ' ' :: t) = .err := by
    unfold letBindings letEntry sepNonemptyList
    simp only [alt_apply, pmap_apply]
    erw [letBinding_open ht h, function_open ht h]
    rfl
  rw [hb]
  rfl

theorem binary_keyword {ind : Nat} {k t : Str} (hk : k ∈ keywords) (ht : Next (fun c => ¬ IdentChar c) t) :
    binary expression ind (k ++ t) = .err := binary_err (termF_keyword hk ht)

theorem expression_let_open {ind : Nat} {t : Str} (ht : NoGap t) (h : expression ind t = .err) :
    expression ind (c!"let x = " ++ t) = .err := by
  rw [expression_unfold]
  unfold expressionF
  have hb : binary expression ind (c!"let x = " ++ t) = .err :=
    binary_keyword (k := c!"let") (t := c!" x = " ++ t) (by decide) (next_cons.2 (by decide))
  simp only [alt_apply, hb, letExpression_open ht h]
  rfl

namespace Trace
variable {m : Event → Bool}

theorem cost_body (ind : Nat) (s : Str) : num m (expressionF expression ind s) ≤ num m (expression ind s) := by
  rw [expression_unfold]
  exact Nat.le_trans (Nat.le_add_right _ _) (Nat.le_of_eq List.countP_cons.symm)

theorem er_letBinding (ind : Nat) : Er (letBinding expression ind) (ElmParser.letBinding ElmParser.expression ind) := by
  have h := er_expression
  have h2 := er_tuple h ind
  have h3 := er_list h ind
  unfold letBinding letBindingTarget ElmParser.letBinding ElmParser.letBindingTarget; er_tac
  exact h _

theorem cost_letEntry {ind : Nat} {t : Str} (ht : NoGap t) (h : ElmParser.expression ind t = .err) :
    2 * num m (expression ind t) ≤ num m (letEntry expression ind (c!"x = " ++ t)) := by
  unfold letEntry
  have hb : (letBinding expression ind (c!"x = " ++ t)).1 = .err := (er_letBinding ind _).trans (letBinding_open ht h)
  rw [cost_alt_err hb, Nat.two_mul]
  refine Nat.add_le_add ?_ ?_
  · unfold letBinding
    have hv : (letBindingTarget expression ind (c!"x = " ++ t)).1 = .ok (.Variable [c!"x"]) (c!" = " ++ t) := rfl
    refine Nat.le_trans ?_ (cost_bind_ok _ hv)
    refine Nat.le_trans ?_ (cost_bind_ok (p := free (gap ind .GTE)) _ (gap_blank ind .GTE (noGap_eqSign (' ' :: t))))
    refine Nat.le_trans ?_ (cost_bind_ok (p := free (ElmParser.char '=')) _ (char_cons '=' (' ' :: t)))
    refine Nat.le_trans ?_ (cost_bind_ok (p := free (gap ind .GTE)) _ (gap_blank ind .GTE ht))
    exact cost_bind _ _ t
  · refine Nat.le_trans ?_ (cost_bind _ _ _)
    unfold functionF
    refine Nat.le_trans ?_ (cost_bind_ok _ ((er_opt (er_terminated (er_functionSignature ind) (er_free _)) _).trans (signature_open ind t)))
    refine Nat.le_trans ?_ (cost_bind _ _ _)
    unfold functionDefinitionF
    have hv : functionNameOrOp (c!"x = " ++ t) = .ok c!"x" (c!" = " ++ t) := rfl
    have hs : spaces (c!" = " ++ t) = .ok c!" " ('=' :: ' ' :: t) := rfl
    refine Nat.le_trans ?_ (cost_bind_ok (p := free functionNameOrOp) _ hv)
    refine Nat.le_trans ?_ (cost_bind_ok _ ((er_many0 (er_preceded (er_free _) (er_termF er_expression ind)) _).trans (args_open ind t)))
    refine Nat.le_trans ?_ (cost_bind_ok (p := free spaces) _ hs)
    refine Nat.le_trans ?_ (cost_bind_ok (p := free (ElmParser.char '=')) _ (char_cons '=' (' ' :: t)))
    refine Nat.le_trans ?_ (cost_bind_ok (p := free (gap ind .GT)) _ (gap_blank ind .GT ht))
    exact cost_bind _ _ t

theorem cost_firstItem {α β : Type} (sep : TP β) (p : TP α) (s : Str) : num m (p s) ≤ num m (sepNonemptyList sep p s) := by
  unfold sepNonemptyList
  exact cost_bind p _ s

theorem cost_let {ind : Nat} {t : Str} (ht : NoGap t) (h : ElmParser.expression ind t = .err) :
    2 * num m (expression ind t) ≤ num m (expression ind (c!"let x = " ++ t)) := by
  refine Nat.le_trans ?_ (cost_body ind _)
  have hb : (binary expression ind (c!"let x = " ++ t)).1 = .err := (er_binary er_expression ind _).trans
    (binary_keyword (k := c!"let") (t := c!" x = " ++ t) (by decide) (next_cons.2 (by decide)))
  unfold expressionF
  rw [cost_alt_err hb]
  refine Nat.le_trans ?_ (Nat.le_add_left _ _)
  refine Nat.le_trans ?_ (cost_alt _ _ _)
  unfold letExpression
  have hl : ElmParser.tag c!"let" (c!"let x = " ++ t) = .ok c!"let" (' ' :: 'x' :: ' ' :: '=' :: ' ' :: t) := rfl
  refine Nat.le_trans ?_ (cost_bind_ok (p := free (ElmParser.tag c!"let")) _ hl)
  refine Nat.le_trans ?_ (cost_bind_ok (p := free (gap ind .GTE)) _ (gap_blank ind .GTE (noGap_x _)))
  refine Nat.le_trans ?_ (cost_bind _ _ _)
  exact Nat.le_trans (cost_letEntry ht h) (cost_firstItem (free (gap ind .EQ)) (letEntry expression ind) (c!"x = " ++ t))

end Trace

/-- Unfinished `let`s, one inside the other: `let x = let x = let x = …`. -/
def lets : Nat → Str
  | 0 => []
  | n + 1 => c!"let x = " ++ lets n

theorem noGap_lets (n : Nat) : NoGap (lets n) := by
  cases n with
  | zero => exact ⟨next_nil _, by rintro t ⟨⟩⟩
  | succ n => exact noGap_of_ne (by decide)

theorem expression_lets (ind n : Nat) : expression ind (lets n) = .err := by
  induction n with
  | zero => rw [expression_unfold]; rfl
  | succ n ih => exact expression_let_open (noGap_lets n) ih

/-- C61: with `let` alone the number of calls can grow exponentially. -/
theorem C61_let (ind n : Nat) : 2 ^ n ≤ Trace.calls (Trace.expression ind (lets n)) := by
  induction n with
  | zero => rw [C40_counts]; exact Nat.succ_le_succ (Nat.zero_le _)
  | succ n ih =>
    rw [Nat.pow_succ, Nat.mul_comm]
    exact Nat.le_trans (Nat.mul_le_mul_left 2 ih) (Trace.cost_let (noGap_lets n) (expression_lets ind n))


/-! ### Unfinished `case`s -/

/-- A variable before something that is neither an argument nor an operator. -/
theorem expression_var_stop {ind : Nat} {w : Expr} {s t : Str} (hl : s.length = t.length + 2)
    (hw : termF expression ind s = .ok w (' ' :: t)) (ht : NoGap t)
    (h1 : termF expression ind t = .err) (h2 : operatorOrAs t = .err) : expression ind s = .ok w (' ' :: t) := by
  have hloop : sepLoop (gap ind .GT) (termF expression ind) ((' ' :: t).length + 1) (' ' :: t) = .ok [] (' ' :: t) := by
    simp only [sepLoop, gap_blank ind .GT ht, h1]
    split <;> rfl
  have happ : applicationOrVar expression ind s = .ok w (' ' :: t) := by
    unfold applicationOrVar sepList
    rw [bind_apply, hw]
    simp only
    rw [if_neg (by simp; omega), hloop]
    rfl
  have htail : binaryTail expression ind (' ' :: t) = .err := by
    unfold binaryTail
    rw [bind_apply, gap_blank ind .GTE ht, andThen_ok, bind_apply, h2]
    rfl
  rw [expression_unfold]
  unfold expressionF binary
  rw [alt_apply, bind_apply, happ, andThen_ok, bind_apply]
  have : opt (binaryTail expression ind) (' ' :: t) = .ok none (' ' :: t) := by
    unfold opt
    rw [alt_apply, pmap_apply, htail]
    rfl
  rw [this]
  rfl

theorem termF_x (ind : Nat) (t : Str) : termF expression ind ('x' :: ' ' :: t) = .ok (.Variable [c!"x"]) (' ' :: t) := rfl

/-- Text that cannot begin an argument or an operator after `f`. -/
theorem noGap_bracket (t : Str) : NoGap ('[' :: t) := noGap_of_ne (by decide)

theorem term_open {ind : Nat} {t : Str} (h : list expression ind ('[' :: t) = .err) : termF expression ind ('[' :: t) = .err := by
  rw [termF_bracket, h]

theorem expression_open_list {ind : Nat} {t : Str} (h : list expression ind ('[' :: t) = .err) :
    expression ind ('[' :: t) = .err := by
  rw [expression_unfold]
  unfold expressionF
  rw [alt_apply, binary_err (term_open h)]
  rfl

theorem expression_f {ind : Nat} {t : Str} (h : list expression ind ('[' :: t) = .err) :
    expression ind ('x' :: ' ' :: '[' :: t) = .ok (.Variable [c!"x"]) (' ' :: '[' :: t) :=
  expression_var_stop rfl (termF_x ind _) (noGap_bracket t) (term_open h) (operatorOrAs_err_head (by decide) (by decide))

theorem expression_arrow (ind : Nat) (t : Str) :
    expression ind (c!"x -> " ++ t) = .ok (.Variable [c!"x"]) (c!" -> " ++ t) := by
  refine expression_var_stop (t := c!"-> " ++ t) rfl (termF_x ind _) ?_ ?_ ?_
  · exact ⟨next_cons.2 (by decide), by rintro t e; simp only [List.cons_append, List.cons.injEq] at e; exact absurd e.2.1 (by decide)⟩
  · exact termF_sign_err (.inr rfl) (next_cons.2 (by decide))
  · rfl

theorem expression_of (ind : Nat) (t : Str) :
    expression ind (c!"x of " ++ t) = .ok (.Variable [c!"x"]) (c!" of " ++ t) := by
  refine expression_var_stop (t := c!"of " ++ t) rfl (termF_x ind _) ?_ ?_ ?_
  · exact noGap_of_ne (by decide)
  · exact termF_keyword (k := c!"of") (t := c!" " ++ t) (by decide) (next_cons.2 (by decide))
  · exact operatorOrAs_err_head (by decide) (by decide)

theorem branch_open {ind : Nat} {t : Str} (h : list expression ind ('[' :: t) = .err) :
    caseBranch expression ind (c!"x -> x [" ++ t) = .ok (.Variable [c!"x"], .Variable [c!"x"]) (c!" [" ++ t) := by
  have e1 := expression_arrow ind (c!"x [" ++ t)
  unfold caseBranch
  rw [bind_apply]
  erw [e1]
  have hg : NoGap ('-' :: '>' :: ' ' :: 'x' :: ' ' :: '[' :: t) :=
    ⟨next_cons.2 (by decide), by rintro t e; simp only [List.cons.injEq] at e; exact absurd e.2.1 (by decide)⟩
  have ha : tag c!"->" ('-' :: '>' :: ' ' :: 'x' :: ' ' :: '[' :: t) = .ok c!"->" (' ' :: 'x' :: ' ' :: '[' :: t) := rfl
  have e2 := gap_blank ind .GTE hg
  rw [andThen_ok, bind_apply]
  erw [e2]
  rw [andThen_ok, bind_apply, ha, andThen_ok, bind_apply, gap_blank ind .GTE (noGap_x _), andThen_ok, bind_apply, expression_f h]
  rfl

theorem branch_none {ind : Nat} {t : Str} (h : list expression ind ('[' :: t) = .err) :
    caseBranch expression ind ('[' :: t) = .err := by
  unfold caseBranch
  rw [bind_apply, expression_open_list h]
  rfl

theorem cases_open {ind : Nat} {t : Str} (h : list expression ind ('[' :: t) = .err) :
    casesP expression ind (c!"x -> x [" ++ t) = .ok [(.Variable [c!"x"], .Variable [c!"x"])] (c!" [" ++ t) := by
  have hloop : sepLoop (gap ind .EQ) (caseBranch expression ind) ((c!" [" ++ t).length + 1) (c!" [" ++ t) = .ok [] (c!" [" ++ t) := by
    have e := gap_blank ind .EQ (noGap_bracket t)
    have e' : gap ind .EQ (c!" [" ++ t) = _ := e
    simp only [sepLoop, e', branch_none h]
    split <;> rfl
  unfold casesP sepNonemptyList
  rw [branch_open h, andThen_ok, if_neg (by simp), hloop]
  rfl

theorem expression_case_open {ind : Nat} {t : Str} (h : list expression ind ('[' :: t) = .err) :
    expression ind (c!"case x of x -> x [" ++ t) =
      .ok (.Case (.Variable [c!"x"]) [(.Variable [c!"x"], .Variable [c!"x"])]) (c!" [" ++ t) := by
  have hb : binary expression ind (c!"case x of x -> x [" ++ t) = .err :=
    binary_keyword (k := c!"case") (t := c!" x of x -> x [" ++ t) (by decide) (next_cons.2 (by decide))
  have hl : letExpression expression ind (c!"case x of x -> x [" ++ t) = .err := rfl
  have hc : tag c!"case" (c!"case x of x -> x [" ++ t) = .ok c!"case" (' ' :: (c!"x of x -> x [" ++ t)) := rfl
  have ho : tag c!"of" (c!"of x -> x [" ++ t) = .ok c!"of" (' ' :: (c!"x -> x [" ++ t)) := rfl
  rw [expression_unfold]
  unfold expressionF
  rw [alt_apply, hb, orElse_err, alt_apply, hl, orElse_err, alt_apply]
  unfold caseExpression
  have e1 := expression_of ind (c!"x -> x [" ++ t)
  have e0 : gap ind .GTE (' ' :: (c!"x of x -> x [" ++ t)) = .ok ind (c!"x of x -> x [" ++ t) := gap_blank ind .GTE (noGap_x _)
  have e3 : gap ind .GTE (' ' :: (c!"x -> x [" ++ t)) = .ok ind (c!"x -> x [" ++ t) := gap_blank ind .GTE (noGap_x _)
  rw [bind_apply, hc, andThen_ok, bind_apply, e0, andThen_ok, bind_apply]
  erw [e1]
  have e2 : gap ind .GTE (' ' :: (c!"of x -> x [" ++ t)) = _ := gap_blank ind .GTE (noGap_of_ne (by decide))
  rw [andThen_ok, bind_apply]
  erw [e2]
  rw [andThen_ok, bind_apply]
  erw [ho]
  rw [andThen_ok, bind_apply, e3, andThen_ok, bind_apply, cases_open h]
  rfl

/-- A list whose one item is followed by another bracket. -/
theorem list_case_open {ind : Nat} {t : Str} (h : list expression ind ('[' :: t) = .err) :
    list expression ind ('[' :: (c!"case x of x -> x [" ++ t)) = .err := by
  have e1 : opt (gap ind .GTE) (c!"case x of x -> x [" ++ t) = .ok none (c!"case x of x -> x [" ++ t) := by
    unfold opt
    have : gap ind .GTE (c!"case x of x -> x [" ++ t) = .err := gap_none (noGap_of_ne (by decide)) ind .GTE
    rw [alt_apply, pmap_apply, this]
    rfl
  have e2 : commaSep ind (c!" [" ++ t) = .err := by
    unfold commaSep
    have e := gap_blank ind .GTE (noGap_bracket t)
    have e' : opt (gap ind .GTE) (c!" [" ++ t) = .ok (some ind) ('[' :: t) := opt_eq_ok.2 (.inl ⟨ind, e, rfl⟩)
    rw [delimited_apply, e']
    rfl
  have e3 : sepList (commaSep ind) (expression ind) (c!"case x of x -> x [" ++ t) =
      .ok [.Case (.Variable [c!"x"]) [(.Variable [c!"x"], .Variable [c!"x"])]] (c!" [" ++ t) := by
    unfold sepList
    rw [expression_case_open h]
    simp only
    rw [if_neg (by simp)]
    simp only [sepLoop, e2]
    rfl
  have e4 : terminated (opt (gap ind .GTE)) (char ']') (c!" [" ++ t) = .err := by
    have e := gap_blank ind .GTE (noGap_bracket t)
    have e' : opt (gap ind .GTE) (c!" [" ++ t) = .ok (some ind) ('[' :: t) := opt_eq_ok.2 (.inl ⟨ind, e, rfl⟩)
    unfold terminated
    rw [bind_apply, e']
    rfl
  have e5 : opt (sepList (commaSep ind) (expression ind)) (c!"case x of x -> x [" ++ t) = .ok (some _) _ :=
    opt_eq_ok.2 (.inl ⟨_, e3, rfl⟩)
  have e6 : preceded (char '[') (opt (gap ind .GTE)) ('[' :: (c!"case x of x -> x [" ++ t)) = .ok none (c!"case x of x -> x [" ++ t) := by
    rw [preceded_apply, char_cons, andThen_ok, e1]
  unfold list
  rw [pmap_apply, delimited_apply, e6, andThen_ok, e5, andThen_ok, e4]
  rfl

namespace Trace
variable {m : Event → Bool}

theorem cost_open_list {ind : Nat} {t : Str} (ht : NoGap t) : num m (expression ind t) ≤ num m (list expression ind ('[' :: t)) := by
  unfold list
  refine Nat.le_trans ?_ (cost_bind _ _ _)
  unfold delimited
  have e : ElmParser.preceded (char '[') (ElmParser.opt (gap ind .GTE)) ('[' :: t) = .ok none t := by
    rw [preceded_apply, char_cons, andThen_ok]
    unfold ElmParser.opt
    rw [alt_apply, pmap_apply, gap_none ht]
    rfl
  refine Nat.le_trans ?_ (cost_bind_ok _ ((er_preceded (er_free _) (er_opt (er_free _)) _).trans e))
  refine Nat.le_trans ?_ (cost_bind _ _ _)
  refine Nat.le_trans ?_ (cost_alt _ _ _)
  refine Nat.le_trans ?_ (cost_bind _ _ _)
  exact cost_sepList _ _ _

/-- The attempt at one more item of a list costs, whether or not it works. -/
theorem cost_sepLoop {α β : Type} {sep : Parser β} {p : TP α} {n : Nat} {s t : Str} {v : β} (h : sep s = .ok v t)
    (hl : t.length < s.length) : num m (p t) ≤ num m (sepLoop (free sep) p (n + 1) s) := by
  have e : free sep s = (.ok v t, []) := by unfold free; rw [h]
  simp only [sepLoop, e]
  rw [if_neg (by omega)]
  cases p t with
  | mk x k =>
    cases x with
    | ok w r =>
      simp only
      split
      · exact Nat.le_refl _
      · exact Nat.le_trans (Nat.le_add_right _ _) (Nat.le_of_eq List.countP_append.symm)
    | err => exact Nat.le_refl _
    | panic => exact Nat.le_refl _
    | div => exact Nat.le_refl _

theorem cost_bind_both {α β : Type} {p : TP α} (f : α → TP β) {s r : Str} {v : α} (h : (p s).1 = .ok v r) :
    num m (p s) + num m (f v r) ≤ num m ((p >>= f) s) := by
  show _ ≤ num m (andThen (p s) f)
  cases hp : p s with
  | mk x n =>
    rw [hp] at h
    cases h
    exact Nat.le_of_eq List.countP_append.symm

theorem cost_firstAndMore {α β : Type} (sep : TP β) {p : TP α} {s r : Str} {v : α} (h : (p s).1 = .ok v r)
    (hl : r.length < s.length) : num m (p s) + num m (sepLoop sep p (r.length + 1) r) ≤ num m (sepNonemptyList sep p s) := by
  unfold sepNonemptyList
  refine Nat.le_trans ?_ (cost_bind_both (p := p) _ h)
  rw [if_neg (by omega)]
  exact Nat.add_le_add_left (cost_bind _ _ _) _

/-- The attempt at an argument costs. -/
theorem cost_argument {ind : Nat} {t : Str} (ht : NoGap t) :
    num m (termF expression ind t) ≤ num m (expression ind ('x' :: ' ' :: t)) := by
  refine Nat.le_trans ?_ (cost_body ind _)
  unfold expressionF
  refine Nat.le_trans ?_ (cost_alt _ _ _)
  unfold binary
  refine Nat.le_trans ?_ (cost_bind _ _ _)
  unfold applicationOrVar
  refine Nat.le_trans ?_ (cost_bind _ _ _)
  have e : (termF expression ind ('x' :: ' ' :: t)).1 = .ok (.Variable [c!"x"]) (' ' :: t) :=
    (er_termF er_expression ind _).trans (termF_x ind t)
  refine Nat.le_trans (cost_sepLoop (n := (' ' :: t).length) (gap_blank ind .GT ht) (Nat.lt_succ_self _)) ?_
  unfold sepList
  cases hp : termF expression ind ('x' :: ' ' :: t) with
  | mk x k =>
    rw [hp] at e
    cases e
    simp only
    rw [if_neg (by simp)]
    refine Nat.le_trans ?_ (Nat.le_trans (Nat.le_add_left _ _) (Nat.le_of_eq List.countP_append.symm))
    exact cost_bind _ _ _

theorem cost_branch {ind : Nat} {t : Str} :
    num m (termF expression ind ('[' :: t)) ≤ num m (caseBranch expression ind (c!"x -> x [" ++ t)) := by
  unfold caseBranch
  have hg : NoGap ('-' :: '>' :: ' ' :: 'x' :: ' ' :: '[' :: t) :=
    ⟨next_cons.2 (by decide), by rintro t e; simp only [List.cons.injEq] at e; exact absurd e.2.1 (by decide)⟩
  have ha : ElmParser.tag c!"->" ('-' :: '>' :: ' ' :: 'x' :: ' ' :: '[' :: t) = .ok c!"->" (' ' :: 'x' :: ' ' :: '[' :: t) := rfl
  refine Nat.le_trans ?_ (cost_bind_ok _ ((er_expression ind _).trans (expression_arrow ind (c!"x [" ++ t))))
  refine Nat.le_trans ?_ (cost_bind_ok (p := free (gap ind .GTE)) _ (gap_blank ind .GTE hg))
  refine Nat.le_trans ?_ (cost_bind_ok (p := free (ElmParser.tag c!"->")) _ ha)
  refine Nat.le_trans ?_ (cost_bind_ok (p := free (gap ind .GTE)) _ (gap_blank ind .GTE (noGap_x _)))
  refine Nat.le_trans ?_ (cost_bind _ _ _)
  exact cost_argument (noGap_bracket t)

theorem cost_term_list (ind : Nat) (t : Str) : num m (list expression ind ('[' :: t)) ≤ num m (termF expression ind ('[' :: t)) := by
  unfold termF
  have f : ∀ {p q : TP Expr}, (p ('[' :: t)).1 = .err → num m (q ('[' :: t)) ≤ num m (alt p q ('[' :: t)) := by
    intro p q h
    rw [cost_alt_err h]
    exact Nat.le_add_left _ _
  have hv : variableP ('[' :: t) = .err := variableP_err (by decide) (by decide) (by decide)
  have hn := number_err_head (c := '[') (t := t) (by decide) (by decide) (by decide)
  refine Nat.le_trans ?_ (f (access_err_of_variable hv))
  refine Nat.le_trans ?_ (f hv)
  refine Nat.le_trans ?_ (f (by rfl))
  refine Nat.le_trans ?_ (f (by rfl))
  refine Nat.le_trans ?_ (f hn.1)
  refine Nat.le_trans ?_ (f hn.2)
  refine Nat.le_trans ?_ (f (by rfl))
  refine Nat.le_trans ?_ (f (by rfl))
  exact cost_alt _ _ _

theorem cost_case {ind : Nat} {t : Str} (ht : NoGap t) (h : ElmParser.list ElmParser.expression ind ('[' :: t) = .err) :
    2 * num m (expression ind t) ≤ num m (expression ind (c!"case x of x -> x [" ++ t)) := by
  have ho : num m (expression ind t) ≤ num m (termF expression ind ('[' :: t)) :=
    Nat.le_trans (cost_open_list ht) (cost_term_list ind t)
  refine Nat.le_trans ?_ (cost_body ind _)
  unfold expressionF
  have hb : (binary expression ind (c!"case x of x -> x [" ++ t)).1 = .err := (er_binary er_expression ind _).trans
    (binary_keyword (k := c!"case") (t := c!" x of x -> x [" ++ t) (by decide) (next_cons.2 (by decide)))
  have hl : (letExpression expression ind (c!"case x of x -> x [" ++ t)).1 = .err := rfl
  have hc : ElmParser.tag c!"case" (c!"case x of x -> x [" ++ t) = .ok c!"case" (' ' :: (c!"x of x -> x [" ++ t)) := rfl
  have hof : ElmParser.tag c!"of" (c!"of x -> x [" ++ t) = .ok c!"of" (' ' :: (c!"x -> x [" ++ t)) := rfl
  rw [cost_alt_err hb]
  refine Nat.le_trans ?_ (Nat.le_add_left _ _)
  rw [cost_alt_err hl]
  refine Nat.le_trans ?_ (Nat.le_add_left _ _)
  refine Nat.le_trans ?_ (cost_alt _ _ _)
  unfold caseExpression
  refine Nat.le_trans ?_ (cost_bind_ok (p := free (ElmParser.tag c!"case")) _ hc)
  refine Nat.le_trans ?_ (cost_bind_ok (p := free (gap ind .GTE)) _ (gap_blank ind .GTE (noGap_x _)))
  refine Nat.le_trans ?_ (cost_bind_ok _ ((er_expression ind _).trans (expression_of ind (c!"x -> x [" ++ t))))
  refine Nat.le_trans ?_ (cost_bind_ok (p := free (gap ind .GTE)) _ (gap_blank ind .GTE (noGap_of_ne (by decide))))
  refine Nat.le_trans ?_ (cost_bind_ok (p := free (ElmParser.tag c!"of")) _ hof)
  refine Nat.le_trans ?_ (cost_bind_ok (p := free (gap ind .GTE)) _ (gap_blank ind .GTE (noGap_x _)))
  refine Nat.le_trans ?_ (cost_bind _ _ _)
  unfold casesP
  refine Nat.le_trans ?_ (cost_firstAndMore (s := c!"x -> x [" ++ t) (r := c!" [" ++ t) _
    ((er_caseBranch er_expression ind _).trans (branch_open h)) (by simp))
  rw [Nat.two_mul]
  refine Nat.add_le_add (Nat.le_trans ho cost_branch) ?_
  refine Nat.le_trans ?_ (cost_sepLoop (n := (c!" [" ++ t).length) (gap_blank ind .EQ (noGap_bracket t)) (Nat.lt_succ_self _))
  unfold caseBranch
  refine Nat.le_trans ?_ (cost_bind _ _ _)
  exact Nat.le_trans ho (cost_term ind _)

end Trace

/-- Unfinished `case`s, one inside the other: `case x of x -> x [case x of x -> x […`. -/
def caseTexts : Nat → Str
  | 0 => []
  | n + 1 => c!"case x of x -> x [" ++ caseTexts n

theorem noGap_cases (n : Nat) : NoGap (caseTexts n) := by
  cases n with
  | zero => exact ⟨next_nil _, by rintro t ⟨⟩⟩
  | succ n => exact noGap_of_ne (by decide)

theorem list_cases (ind n : Nat) : list expression ind ('[' :: caseTexts n) = .err := by
  induction n with
  | zero =>
    have : expression ind [] = .err := by rw [expression_unfold]; rfl
    unfold list caseTexts
    have hg : preceded (char '[') (opt (gap ind .GTE)) c!"[" = .ok none [] := rfl
    have hs : opt (sepList (commaSep ind) (expression ind)) [] = .ok (some []) [] := by
      unfold sepList opt
      rw [alt_apply, pmap_apply, this]
      rfl
    rw [pmap_apply, delimited_apply, hg, andThen_ok, hs]
    rfl
  | succ n ih => exact list_case_open ih

/-- C61: with `case` alone the number of calls can grow exponentially. -/
theorem C61_case (ind n : Nat) : 2 ^ n ≤ Trace.calls (Trace.expression ind (caseTexts n)) := by
  induction n with
  | zero => rw [C40_counts]; exact Nat.succ_le_succ (Nat.zero_le _)
  | succ n ih =>
    rw [Nat.pow_succ, Nat.mul_comm]
    exact Nat.le_trans (Nat.mul_le_mul_left 2 ih) (Trace.cost_case (noGap_cases n) (list_cases ind n))


/-! ### Each of the three is needed, and the bound is sharp -/

theorem lets_chars (n : Nat) : ∀ c ∈ lets n, c ∈ c!"let x=" := by
  induction n with
  | zero => intro c h; cases h
  | succ n ih =>
    intro c h
    rcases List.mem_append.1 h with h | h
    · exact (by decide : ∀ c ∈ c!"let x = ", c ∈ c!"let x=") c h
    · exact ih c h

theorem caseTexts_chars (n : Nat) : ∀ c ∈ caseTexts n, c ∈ c!"case xof->[" := by
  induction n with
  | zero => intro c h; cases h
  | succ n ih =>
    intro c h
    rcases List.mem_append.1 h with h | h
    · exact (by decide : ∀ c ∈ c!"case x of x -> x [", c ∈ c!"case xof->[") c h
    · exact ih c h

theorem lets_length (n : Nat) : (lets n).length = 8 * n := by
  induction n with
  | zero => rfl
  | succ n ih => simp [lets, ih]; omega

theorem caseTexts_length (n : Nat) : (caseTexts n).length = 18 * n := by
  induction n with
  | zero => rfl
  | succ n ih => simp [caseTexts, ih]; omega

/-- C61: none of the three conditions can be dropped: with any two of them there are, for every n, texts of length
proportional to n that need 2ⁿ calls. -/
theorem C61_needed (ind n : Nat) :
    (∃ s : Str, s.length = n ∧ ¬ c!"let" <:+: s ∧ ¬ c!"case" <:+: s ∧ 2 ^ n ≤ Trace.calls (Trace.expression ind s)) ∧
    (∃ s : Str, s.length = 8 * n ∧ '(' ∉ s ∧ ¬ c!"case" <:+: s ∧ 2 ^ n ≤ Trace.calls (Trace.expression ind s)) ∧
    (∃ s : Str, s.length = 18 * n ∧ '(' ∉ s ∧ ¬ c!"let" <:+: s ∧ 2 ^ n ≤ Trace.calls (Trace.expression ind s)) := by
  refine ⟨⟨List.replicate n '(', List.length_replicate, not_infix (c := 'l') (by decide) ?_, not_infix (c := 'c') (by decide) ?_,
    C40_parens ind n⟩, ⟨lets n, lets_length n, ?_, not_infix (c := 'c') (by decide) ?_, C61_let ind n⟩,
    ⟨caseTexts n, caseTexts_length n, ?_, not_infix (c := 'l') (by decide) ?_, C61_case ind n⟩⟩
  · intro h; exact absurd (List.eq_of_mem_replicate h) (by decide)
  · intro h; exact absurd (List.eq_of_mem_replicate h) (by decide)
  · intro h; exact absurd (lets_chars n _ h) (by decide)
  · intro h; exact absurd (lets_chars n _ h) (by decide)
  · intro h; exact absurd (caseTexts_chars n _ h) (by decide)
  · intro h; exact absurd (caseTexts_chars n _ h) (by decide)

/-- C61: the bound is reached, by opening brackets. -/
theorem C61_sharp (ind n : Nat) : Straight (List.replicate n '[') ∧ Trace.calls (Trace.expression ind (List.replicate n '[')) = n + 1 := by
  have hs : Straight (List.replicate n '[') := {
    paren := fun h => absurd (List.eq_of_mem_replicate h) (by decide)
    let_ := not_infix (c := 'l') (by decide) fun h => absurd (List.eq_of_mem_replicate h) (by decide)
    case := not_infix (c := 'c') (by decide) fun h => absurd (List.eq_of_mem_replicate h) (by decide) }
  refine ⟨hs, Nat.le_antisymm (Nat.le_trans (C61_linear ind hs) (by simp)) ?_⟩
  clear hs
  induction n with
  | zero => rw [C40_counts]; exact Nat.succ_le_succ (Nat.zero_le _)
  | succ n ih =>
    rw [C40_counts]
    refine Nat.succ_le_succ (Nat.le_trans ih ?_)
    have hg : NoGap (List.replicate n '[') := by
      cases n with
      | zero => exact ⟨next_nil _, by rintro t ⟨⟩⟩
      | succ n => exact noGap_of_ne (by decide)
    refine Nat.le_trans (Trace.cost_open_list hg) (Nat.le_trans (Trace.cost_term_list ind _) ?_)
    refine Nat.le_trans (Nat.le_trans ?_ (Trace.cost_bind _ _ _)) (Trace.cost_alt _ _ _)
    exact Nat.le_trans (Trace.cost_sepList _ _ _) (Trace.cost_bind _ _ _)
example := C61_function (s := c!"\\x y -> if x then [{ a = [1, { b | d = [y] }], c = ") 0 straight_example
example := C61_file (s := c!"\\x y -> if x then [{ a = [1, { b | d = [y] }], c = ") straight_example

end ElmParser
