import Verif.Proofs.Bound
import Verif.Props.Cost
import Verif.Props.Printed

/-! C48: how much backtracking costs at most. -/
namespace ElmParser
open Spec

/-- Every event is a call or a line. -/
theorem events_eq {α : Type} (x : Res α × List Trace.Event) :
    Trace.calls x + Trace.types x + (Trace.lines x.2).length = x.2.length := by
  unfold Trace.calls Trace.types Trace.num Trace.lines
  generalize x.2 = es
  induction es with
  | nil => rfl
  | cons e es ih =>
    cases e with
    | call =>
      rw [List.countP_cons_of_pos (by rfl), List.countP_cons_of_neg (by simp), List.filterMap_cons_none (by rfl), List.length_cons]
      omega
    | ty =>
      rw [List.countP_cons_of_neg (by simp), List.countP_cons_of_pos (by rfl), List.filterMap_cons_none (by rfl), List.length_cons]
      omega
    | hex r =>
      rw [List.countP_cons_of_neg (by simp), List.countP_cons_of_neg (by simp),
        List.filterMap_cons_some (b := .hex r) (by rfl), List.length_cons, List.length_cons]
      omega

/-- C48: the number of calls of `expression` and of `type_`, and of lines printed, is at most exponential in the length
of the text. -/
theorem C48_expression (ind : Nat) (s : Str) : Trace.calls (Trace.expression ind s) + Trace.types (Trace.expression ind s) +
    (Trace.lines (Trace.expression ind s).2).length ≤ 128 ^ s.length := by
  have h := (Trace.bd_expression s.length ind s (Nat.le_refl _)).1
  rw [Nat.one_mul] at h
  rw [events_eq]
  exact h

/-- C48: the same for files. -/
theorem C48_file (s : Str) : Trace.calls (Trace.file s) + Trace.types (Trace.file s) +
    (Trace.lines (Trace.file s).2).length ≤ 110 * 128 ^ s.length := by
  rw [events_eq]
  exact (Trace.bd_file s.length s (Nat.le_refl _)).1

/-- C48: so much the checker prints at most. -/
theorem C48_check {read : Str → Read} {prog f s : Str} (more : List Str) (h : read f = .contents s) :
    (Trace.checkMain read (prog :: f :: more)).out.length ≤ 110 * 128 ^ s.length + 1 := by
  have h1 : (Trace.lines (Trace.file s).2).length ≤ 110 * 128 ^ s.length := Nat.le_trans (Nat.le_add_left _ _) (C48_file s)
  unfold Trace.checkMain
  rw [if_neg (by simp)]
  simp only [List.getElem?_cons_succ, List.getElem?_cons_zero, h]
  cases hf : Trace.file s with
  | mk x es =>
    rw [hf] at h1
    simp only at h1
    cases x <;> simp <;> omega

/-! ### Texts without nesting -/

/-- Nothing in the text can open a nested expression. -/
structure Unnested (s : Str) : Prop where
  chars : ∀ c ∈ s, c ≠ '(' ∧ c ≠ '[' ∧ c ≠ '{' ∧ c ≠ '\\'
  let_ : ¬ c!"let" <:+: s
  case : ¬ c!"case" <:+: s
  if_ : ¬ c!"if" <:+: s

theorem Unnested.suffix {s t : Str} (h : Unnested s) (ht : t <:+ s) : Unnested t where
  chars c hc := h.chars c (ht.subset hc)
  let_ hs := h.let_ (hs.trans ht.isInfix)
  case hs := h.case (hs.trans ht.isInfix)
  if_ hs := h.if_ (hs.trans ht.isInfix)

namespace Trace
@[inherit_doc] local infixr:20 " </> " => alt
variable {α β γ : Type}

theorem quiet_bind {p : Parser α} {f : α → TP β} {s : Str} (h : p s = .err) : (free p >>= f) s = (.err, []) := by
  show andThen (p s, []) f = _
  rw [h]; rfl

theorem quiet_alt {p q : TP α} {s : Str} (h : (p s).2 = []) (h' : (q s).2 = []) : ((p </> q) s).2 = [] := by
  unfold alt
  cases hp : p s with
  | mk x n =>
    rw [hp] at h
    cases x <;> simp_all

theorem quiet_pmap {p : TP α} {f : α → β} {s : Str} (h : (p s).2 = []) : (pmap p f s).2 = [] := by
  rw [pmap, bind_events fun _ _ => rfl]; exact h

theorem quiet_sepLoop {sep : Parser β} {p : TP α} {s : Str} (hs : ∀ k, Good k sep)
    (hr : ∀ s v r, (p s).1 = .ok v r → r <:+ s) (h : ∀ t, t <:+ s → (p t).2 = []) (n : Nat) :
    (sepLoop (free sep) p n s).2 = [] := by
  induction n generalizing s with
  | zero => rfl
  | succ n ih =>
    simp only [sepLoop, free]
    cases hp : sep s with
    | ok u s2 =>
      simp only
      split
      · rfl
      · have h2 := suffix_of_ok hs hp
        have h3 := h s2 h2
        have h4 := hr s2
        cases hq : p s2 with
        | mk y l =>
          rw [hq] at h3 h4
          simp only at h3
          subst h3
          cases y with
          | ok v r =>
            simp only
            split
            · rfl
            · have h5 := (h4 v r rfl).trans h2
              have := ih (s := r) fun t ht => h t (ht.trans h5)
              show [] ++ _ = _
              rw [List.nil_append, bind_events fun _ _ => rfl]
              exact this
          | err => rfl
          | panic => rfl
          | div => rfl
    | err => rfl
    | panic => rfl
    | div => rfl

theorem quiet_sepList {sep : Parser β} {p : TP α} {s : Str} (hs : ∀ k, Good k sep)
    (hr : ∀ s v r, (p s).1 = .ok v r → r <:+ s) (h : ∀ t, t <:+ s → (p t).2 = []) :
    (sepList (free sep) p s).2 = [] := by
  unfold sepList
  have h3 := h s (List.suffix_refl s)
  have h4 := hr s
  cases hq : p s with
  | mk y l =>
    rw [hq] at h3 h4
    simp only at h3
    subst h3
    cases y with
    | ok v r =>
      simp only
      split
      · rfl
      · show [] ++ _ = _
        rw [List.nil_append, bind_events fun _ _ => rfl]
        exact quiet_sepLoop hs hr (fun t ht => h t (ht.trans (h4 v r rfl))) _
    | err => rfl
    | panic => rfl
    | div => rfl

theorem char_ne {c : Char} {s : Str} (h : ∀ x ∈ s, x ≠ c) : char c s = .err := by
  cases s with
  | nil => rfl
  | cons x s => exact char_cons_ne s (h x (by simp))

theorem tag_infix {c : Char} {t s : Str} (h : ¬ (c :: t) <:+: s) : tag (c :: t) s = .err := by
  refine err_of (fun k => cons_tag k c t) fun v r e => h ?_
  obtain ⟨-, rfl⟩ := tag_eq_ok.1 e
  exact ⟨[], r, rfl⟩

theorem quiet_delimited {p : TP α} {q : TP β} {t : TP γ} {s : Str} (h : p s = (.err, [])) : (delimited p q t s).2 = [] := by
  have : delimited p q t s = (.err, []) := by
    show andThen (p s) _ = _
    rw [h]; rfl
  rw [this]

/-- A term of such a text makes no calls and prints nothing. -/
theorem quiet_term {s : Str} (ind : Nat) (h : Unnested s) : (termF expression ind s).2 = [] := by
  have h1 : char '(' s = .err := char_ne fun c hc => (h.chars c hc).1
  have h2 : char '[' s = .err := char_ne fun c hc => (h.chars c hc).2.1
  have h3 : char '{' s = .err := char_ne fun c hc => (h.chars c hc).2.2.1
  have hc : (character s).2 = [] := by
    rcases character_events s with e | ⟨a, b, r, rfl, -⟩
    · exact e
    · exact absurd rfl (h.chars '\\' (by simp)).2.2.2
  have f1 : free (char '(') s = (.err, []) := by unfold free; rw [h1]
  have f3 : ∀ {γ : Type} (q : TP γ), preceded (free (char '{')) q s = (.err, []) := fun q => quiet_bind h3
  have f2 : ∀ {γ : Type} (q : TP γ), preceded (free (char '[')) q s = (.err, []) := fun q => quiet_bind h2
  unfold termF
  refine quiet_alt rfl (quiet_alt rfl (quiet_alt rfl (quiet_alt rfl (quiet_alt rfl (quiet_alt rfl (quiet_alt hc ?_))))))
  refine quiet_alt (quiet_delimited f1) (quiet_alt (quiet_pmap (quiet_delimited (f2 _))) (quiet_alt (quiet_pmap (quiet_delimited f1))
    (quiet_alt (quiet_delimited (f3 _)) (quiet_alt (quiet_pmap (quiet_delimited (f3 _))) rfl))))

theorem events_bind_le (p : TP α) (f : α → TP β) (s : Str) {n : Nat} (h : (p s).2 = [])
    (hf : ∀ v r, (p s).1 = .ok v r → (f v r).2.length ≤ n) : ((p >>= f) s).2.length ≤ n := by
  show (andThen (p s) f).2.length ≤ n
  cases hp : p s with
  | mk x l =>
    rw [hp] at h hf
    simp only at h
    subst h
    cases x with
    | ok v r => exact hf v r rfl
    | err => exact Nat.zero_le _
    | panic => exact Nat.zero_le _
    | div => exact Nat.zero_le _

theorem quiet_app {s : Str} (ind : Nat) (h : Unnested s) : (applicationOrVar expression ind s).2 = [] := by
  unfold applicationOrVar
  rw [bind_events]
  · refine quiet_sepList (fun k => (cons_gap k _ _).good) (fun s v r e => ?_) fun t ht => quiet_term ind (h.suffix ht)
    exact suffix_of_ok (fun k => (cons_termE k ind).good) ((er_termF er_expression ind s).symm.trans e)
  · intro v s
    split
    · rfl
    · split
      · rfl
      · rw [bind_events]
        · rfl
        · intro _ _; rw [bind_events] <;> intros <;> rfl

theorem cons_applicationOrVarE (k ind : Nat) : Cons k (ElmParser.applicationOrVar ElmParser.expression ind) :=
  (cons_applicationOrVar (fun ind => (cons_expression k ind).good) ind).mono (by omega)

theorem unnested_bound (ind : Nat) (n : Nat) : ∀ s : Str, s.length ≤ n → Unnested s →
    (expression ind s).2.length ≤ s.length + 1 := by
  induction n with
  | zero =>
    intro s hs h
    have : s = [] := List.eq_nil_of_length_eq_zero (by omega)
    subst this
    exact Nat.le_refl 1
  | succ n ih =>
    intro s hs h
    rw [expression_unfold]
    show _ + 1 ≤ _
    refine Nat.succ_le_succ ?_
    have hl : (letExpression expression ind s).2 = [] := by
      unfold letExpression; rw [quiet_bind (tag_infix h.let_)]
    have hc : (caseExpression expression ind s).2 = [] := by
      unfold caseExpression; rw [quiet_bind (tag_infix h.case)]
    have hi : (ifExpression expression ind s).2 = [] := by
      unfold ifExpression; rw [quiet_bind (tag_infix h.if_)]
    have hb : (lambda expression ind s).2 = [] := by
      unfold lambda; rw [quiet_bind (char_ne fun c hc => (h.chars c hc).2.2.2)]
    unfold expressionF
    rw [alt_events (quiet_alt hl (quiet_alt hc (quiet_alt hi hb)))]
    unfold binary
    refine events_bind_le _ _ _ (quiet_app ind h) fun v r e => ?_
    have hr : r <:+ s := suffix_of_ok (fun k => (cons_applicationOrVarE k ind).good) ((er_applicationOrVar er_expression ind s).symm.trans e)
    rw [bind_events fun _ _ => rfl]
    unfold opt
    rw [alt_events rfl, pmap, bind_events fun _ _ => rfl]
    unfold binaryTail
    refine Nat.le_trans (events_bind_le (n := r.length) _ _ _ rfl fun v r1 e1 => ?_) hr.length_le
    have h1 := lt_of_ok (fun k => cons_gap k _ _) e1
    have k1 := suffix_of_ok (fun k => (cons_gap k _ _).good) e1
    refine events_bind_le _ _ _ rfl fun v r2 e2 => ?_
    have k2 := suffix_of_ok (fun k => (cons_operatorOrAs k).good) e2
    refine events_bind_le _ _ _ rfl fun v r3 e3 => ?_
    have k3 := suffix_of_ok (fun k => (cons_multispace k).good) e3
    have k := k3.trans (k2.trans (k1))
    have := (k3.trans k2).length_le
    rw [bind_events fun _ _ => rfl]
    have hrl := hr.length_le
    exact Nat.le_trans (ih r3 (by omega) (h.suffix (k.trans hr))) (by omega)

end Trace

/-- C48: without brackets, backslashes and the letters of `let`, `case` and `if` in sequence there is no backtracking to
speak of: at most one call for every character, and one more. -/
theorem C48_unnested {s : Str} (ind : Nat) (h : Unnested s) :
    Trace.calls (Trace.expression ind s) ≤ s.length + 1 :=
  Nat.le_trans List.countP_le_length (Trace.unnested_bound ind s.length s (Nat.le_refl _) h)

/-- C48: for every length, the largest number of calls lies between 2ⁿ and 128ⁿ. -/
theorem C48_worst (ind n : Nat) : (∃ s : Str, s.length = n ∧ 2 ^ n ≤ Trace.calls (Trace.expression ind s)) ∧
    ∀ s : Str, s.length = n → Trace.calls (Trace.expression ind s) ≤ 128 ^ n := by
  refine ⟨⟨List.replicate n '(', by simp, C40_parens ind n⟩, ?_⟩
  rintro s rfl
  have := C48_expression ind s
  omega

/-- `a + f 1 * b`: three calls, and the bound of 12. -/
example : Unnested c!"a + f 1 * b" where
  chars := by decide
  let_ := by decide
  case := by decide
  if_ := by decide
example : Trace.calls (Trace.expression 0 c!"a + f 1 * b") = 3 := rfl
example := C48_check (read := fun _ => .contents c!"x = '\\x41'") (prog := c!"check") (f := c!"a.elm") [] rfl
example := C48_unnested (s := c!"a + f 1 * b") 0 ⟨by decide, by decide, by decide, by decide⟩

end ElmParser
