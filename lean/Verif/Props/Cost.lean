import Verif.Proofs.Trace
import Verif.Props.Exprs

/-! C40: backtracking takes exponential time. -/
namespace ElmParser
open Spec

namespace Trace

/-- The number of events of some kind. -/
def num {α : Type} (m : Event → Bool) (x : Res α × List Event) : Nat := x.2.countP m

/-- The number of calls of `expression`. -/
def calls {α : Type} (x : Res α × List Event) : Nat := num (· == .call) x

/-- The number of calls of `type_`. -/
def types {α : Type} (x : Res α × List Event) : Nat := num (· == .ty) x

end Trace

/-- C40: the parser with events gives the same results as the parser. -/
theorem C40_results (ind : Nat) (s : Str) : (Trace.expression ind s).1 = expression ind s := Trace.er_expression ind s

/-- C40: the calls satisfy the recursive equation of the source: one for the call, plus those of the body. -/
theorem C40_counts (ind : Nat) (s : Str) :
    Trace.calls (Trace.expression ind s) = Trace.calls (Trace.expressionF Trace.expression ind s) + 1 := by
  rw [Trace.expression_unfold]
  exact List.countP_cons_of_pos (p := (· == Trace.Event.call)) (a := .call) rfl

namespace Trace
@[inherit_doc] local infixr:20 " </> " => alt
variable {α β γ : Type} {m : Event → Bool}

theorem cost_bind (p : TP α) (f : α → TP β) (s : Str) : num m (p s) ≤ num m ((p >>= f) s) := by
  show _ ≤ num m (andThen (p s) f)
  cases p s with
  | mk x n =>
    cases x with
    | ok v r => exact Nat.le_trans (Nat.le_add_right _ _) (Nat.le_of_eq List.countP_append.symm)
    | err => exact Nat.le_refl _
    | panic => exact Nat.le_refl _
    | div => exact Nat.le_refl _

theorem cost_bind_ok {p : TP α} (f : α → TP β) {s r : Str} {v : α} (h : (p s).1 = .ok v r) :
    num m (f v r) ≤ num m ((p >>= f) s) := by
  show _ ≤ num m (andThen (p s) f)
  cases hp : p s with
  | mk x n =>
    rw [hp] at h
    cases h
    exact Nat.le_trans (Nat.le_add_left _ _) (Nat.le_of_eq List.countP_append.symm)

theorem cost_alt (p q : TP α) (s : Str) : num m (p s) ≤ num m ((p </> q) s) := by
  unfold alt
  cases p s with
  | mk x n =>
    cases x with
    | err => exact Nat.le_trans (Nat.le_add_right _ _) (Nat.le_of_eq List.countP_append.symm)
    | ok v r => exact Nat.le_refl _
    | panic => exact Nat.le_refl _
    | div => exact Nat.le_refl _

theorem cost_alt_err {p q : TP α} {s : Str} (h : (p s).1 = .err) : num m ((p </> q) s) = num m (p s) + num m (q s) := by
  unfold alt
  cases hp : p s with
  | mk x n =>
    rw [hp] at h
    cases h
    exact List.countP_append

theorem cost_sepList (sep : TP β) (p : TP α) (s : Str) : num m (p s) ≤ num m (sepList sep p s) := by
  unfold sepList
  cases p s with
  | mk x n =>
    cases x with
    | err => exact Nat.le_refl _
    | ok v r =>
      simp only
      split
      · exact Nat.le_refl _
      · exact Nat.le_trans (Nat.le_add_right _ _) (Nat.le_of_eq List.countP_append.symm)
    | panic => exact Nat.le_refl _
    | div => exact Nat.le_refl _

theorem cost_term (ind : Nat) (s : Str) : num m (termF expression ind s) ≤ num m (expression ind s) := by
  rw [expression_unfold]
  refine Nat.le_trans (Nat.le_trans ?_ (cost_alt _ _ s))
    (Nat.le_trans (Nat.le_add_right _ _) (Nat.le_of_eq List.countP_cons.symm))
  refine Nat.le_trans ?_ (cost_bind _ _ s)
  exact Nat.le_trans (cost_sepList _ _ s) (cost_bind _ _ s)

/-- After an opening parenthesis that is not the start of a parenthesised expression, everything is parsed twice. -/
theorem cost_paren {ind : Nat} {t : Str} (hv : variableP ('(' :: t) = .err) (h : ElmParser.parens ElmParser.expression ind ('(' :: t) = .err)
    (ht : Next (fun c => isMultispace c = false) t) :
    2 * num m (expression ind t) ≤ num m (termF expression ind ('(' :: t)) := by
  unfold termF
  have f : ∀ {p : Parser Expr} {q : TP Expr}, p ('(' :: t) = .err → num m (q ('(' :: t)) = num m ((free p </> q) ('(' :: t)) := by
    intro p q h
    rw [cost_alt_err h]
    exact (Nat.zero_add _).symm
  have hc : num m (character ('(' :: t)) = 0 := rfl
  rw [← f (access_err_of_variable hv), ← f hv, ← f (by rfl), ← f (by rfl), ← f (by rfl), ← f (by rfl), cost_alt_err (p := character) rfl,
    hc, Nat.zero_add]
  rw [cost_alt_err ((er_parens er_expression ind _).trans h), Nat.two_mul]
  refine Nat.add_le_add ?_ ?_
  · unfold parens delimited
    refine Nat.le_trans ?_ (cost_bind_ok (p := free (ElmParser.char '(')) (v := '(') (r := t) _ rfl)
    exact cost_bind _ _ t
  · rw [cost_alt_err rfl]
    refine Nat.le_trans ?_ (Nat.le_add_left _ _)
    refine Nat.le_trans ?_ (cost_alt _ _ _)
    refine Nat.le_trans ?_ (cost_bind _ _ _)
    unfold delimited
    refine Nat.le_trans ?_ (cost_bind_ok (p := free (ElmParser.char '(')) (v := '(') (r := t) _ rfl)
    refine Nat.le_trans ?_ (cost_bind _ _ t)
    refine Nat.le_trans ?_ (cost_sepList _ _ t)
    refine Nat.le_trans ?_ (cost_bind_ok (p := free ElmParser.multispace0) (v := []) (r := t) _ ?_)
    · exact cost_bind _ _ t
    cases t with
    | nil => rfl
    | cons c t =>
      have := next_cons.1 ht
      show ElmParser.multispace0 (c :: t) = _
      simp [ElmParser.multispace0, takeWhile0, this]

end Trace

/-- Opening parentheses only are not an expression. -/
theorem expression_open (ind n : Nat) : expression ind (List.replicate n '(') = .err := by
  induction n with
  | zero => rw [expression_unfold]; rfl
  | succ n ih =>
    rw [List.replicate_succ]
    have hop : op ('(' :: List.replicate n '(') = .err := by cases n <;> rfl
    have ht : termF expression ind ('(' :: List.replicate n '(') = .err := by
      rw [termF_paren_of_op hop, alt_apply]
      have hp : parens expression ind ('(' :: List.replicate n '(') = .err := by
        unfold parens; rw [delimited_apply, char_cons, andThen_ok, ih]; rfl
      have hm : multispace0 (List.replicate n '(') = .ok [] (List.replicate n '(') := by cases n <;> rfl
      rw [hp, orElse_err]
      unfold tuple
      rw [pmap_apply, delimited_apply, char_cons, andThen_ok]
      have : sepList (char ',') (delimited multispace0 (expression ind) multispace0) (List.replicate n '(') =
          .ok [] (List.replicate n '(') := by
        unfold sepList
        rw [delimited_apply, hm, andThen_ok, ih]
        rfl
      rw [this, andThen_ok]
      cases n <;> rfl
    rw [expression_unfold]
    unfold expressionF binary applicationOrVar sepList
    simp only [alt_apply, bind_apply, ht]
    rfl

/-- C40: on `n` opening parentheses the parser calls `expression` at least 2ⁿ times (and then fails). -/
theorem C40_parens (ind n : Nat) : 2 ^ n ≤ Trace.calls (Trace.expression ind (List.replicate n '(')) := by
  induction n with
  | zero => rw [C40_counts]; exact Nat.succ_le_succ (Nat.zero_le _)
  | succ n ih =>
    rw [List.replicate_succ, Nat.pow_succ, Nat.mul_comm]
    refine Nat.le_trans (Nat.mul_le_mul_left 2 ih) (Nat.le_trans (Trace.cost_paren ?_ ?_ ?_) (Trace.cost_term ind _))
    · rw [variableP_paren]; cases n <;> rfl
    · unfold parens; rw [delimited_apply, char_cons, andThen_ok, expression_open]; rfl
    · cases n with
      | zero => exact next_nil _
      | succ n => exact next_cons.2 rfl

/-- Nested pairs: `x`, `(x,x)`, `((x,x),x)`, ... -/
def pairs : Nat → Str
  | 0 => c!"x"
  | n + 1 => c!"(" ++ pairs n ++ c!",x)"

/-- Their trees. -/
def pairsTree : Nat → Expr
  | 0 => .Variable [c!"x"]
  | n + 1 => .Tuple [pairsTree n, .Variable [c!"x"]]

theorem pairs_src (ind n : Nat) : Src True ind (.expr (pairsTree n)) (pairs n) := by
  have hx : Src True ind (.expr (.Variable [c!"x"])) c!"x" :=
    .eApp (.app (c := c!"x") (cs := []) (es := []) (ex_var ind ex_x) .args0)
  have hw : Whites [] := by simp [Whites]
  induction n with
  | zero => exact hx
  | succ n ih =>
    have := SrcAt.tuple (j := ind + 1) hw hw ih.low (.comps hw hw hx.low .comps0) (by simp)
    have := SrcAt.eApp (.app (es := []) (cs := []) (.closed this) .args0)
    simpa [pairs, pairsTree] using this

/-- C40: nested pairs are valid, so the cost is not confined to invalid input. -/
theorem C40_pairs_parse (ind n : Nat) : expression ind (pairs n) = .ok (pairsTree n) [] := by
  have := expression_complete (pairs_src ind n) (stop_nil ind)
  rwa [List.append_nil] at this

/-- C40: on `n` nested pairs, whatever follows, the parser calls `expression` at least 2ⁿ times. -/
theorem C40_pairs (ind n : Nat) (r : Str) : 2 ^ n ≤ Trace.calls (Trace.expression ind (pairs n ++ r)) := by
  induction n generalizing r with
  | zero => rw [C40_counts]; exact Nat.succ_le_succ (Nat.zero_le _)
  | succ n ih =>
    have e : pairs (n + 1) ++ r = '(' :: (pairs n ++ ',' :: c!"x)" ++ r) := by simp [pairs]
    rw [e, List.append_assoc, Nat.pow_succ, Nat.mul_comm]
    refine Nat.le_trans (Nat.mul_le_mul_left 2 (ih _)) (Nat.le_trans (Trace.cost_paren ?_ ?_ ?_) (Trace.cost_term ind _))
    · rw [variableP_paren]; cases n <;> rfl
    · unfold parens
      have hs : Stop ind (',' :: (c!"x)" ++ r)) :=
        (stop_whites (w := []) (x := ',') (by simp [Whites]) (by decide)).stop (Nat.zero_le _)
      have := expression_complete (pairs_src ind n) hs
      rw [delimited_apply, char_cons, andThen_ok]
      exact (congrArg (fun x => Res.andThen x _) this).trans rfl
    · cases n with
      | zero => exact next_cons.2 rfl
      | succ n => exact next_cons.2 rfl

/-- The counts for small cases. -/
example : Trace.calls (Trace.expression 0 c!"(((") = 15 ∧ Trace.calls (Trace.expression 0 c!"((x,x),x)") = 10 := ⟨rfl, rfl⟩

end ElmParser
