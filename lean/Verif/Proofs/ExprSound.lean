import Verif.Proofs.TypeComplete
import Verif.Proofs.ExprAt

/-! Every expression the parser returns comes from a text of the grammar `Src`. -/
namespace ElmParser
open Spec

/-! ### How texts start -/

/-- Some operator characters (no comment) and then a character that is neither part of an operator
nor white space nor closing. -/
def Starts (c : Str) : Prop :=
  ∃ p x t, c = p ++ x :: t ∧ (∀ y ∈ p, OpChar y) ∧ ¬ OpChar x ∧ ¬ White x ∧
    x ∉ [')', ',', ']', '}'] ∧ ∀ t', p ≠ '-' :: '-' :: t'

/-- A character that starts a text on its own. -/
def GoodHead (x : Char) : Prop := ¬ OpChar x ∧ ¬ White x ∧ x ∉ [')', ',', ']', '}']

theorem starts_cons {x : Char} {t : Str} (h : GoodHead x) : Starts (x :: t) :=
  ⟨[], x, t, rfl, by simp, h.1, h.2.1, h.2.2, by simp⟩

theorem Starts.append {c d : Str} (h : Starts c) : Starts (c ++ d) := by
  obtain ⟨p, x, t, rfl, h1, h2⟩ := h
  exact ⟨p, x, t ++ d, by simp, h1, h2⟩

theorem Starts.ne_nil {c : Str} (h : Starts c) : c ≠ [] := by
  obtain ⟨p, x, t, rfl, -⟩ := h
  simp

theorem goodHead_of_ident {x : Char} (h : IdentChar x) : GoodHead x := by
  have h1 : ¬ OpChar x := by
    intro h'
    have : ∀ y ∈ ['+', '-', '/', '*', '=', '.', '$', '<', '>', ':', '&', '|', '^', '?', '%', '#', '@', '~',
      '!', '\\'], ¬ IdentChar y := by decide
    exact this x h' h
  have h2 : ¬ White x := by
    rintro (rfl | rfl | rfl | rfl) <;> revert h <;> decide
  have h3 : x ∉ [')', ',', ']', '}'] := by
    intro h'
    have : ∀ y ∈ [')', ',', ']', '}'], ¬ IdentChar y := by decide
    exact this x h' h
  exact ⟨h1, h2, h3⟩

theorem goodHead_lower {x : Char} (h : Lower x) : GoodHead x := goodHead_of_ident (.inl h)
theorem goodHead_upper {x : Char} (h : Upper x) : GoodHead x := goodHead_of_ident (.inr (.inl h))
theorem goodHead_digit {x : Char} (h : Digit x) : GoodHead x := goodHead_of_ident (.inr (.inr (.inl h)))

theorem starts_loName {n : Name} (h : LoName n) : Starts n := by
  rcases h with rfl | ⟨⟨c, t, rfl, h, -⟩, -⟩
  · exact starts_cons (goodHead_of_ident (by decide))
  · exact starts_cons (goodHead_lower h)

theorem starts_varText {ns : List Name} {c : Str} (h : VarText ns c) : Starts c := by
  cases h with
  | lo h => exact starts_loName h
  | up h h' =>
    obtain ⟨x, t, e, h⟩ := dotted_head h h'
    rw [e]
    exact starts_cons (goodHead_upper h)
  | op h => exact starts_cons (x := '(') ⟨by decide, by decide, by decide⟩
  | commas => exact starts_cons (x := '(') ⟨by decide, by decide, by decide⟩

theorem starts_fnName {n : Name} {c : Str} (h : FnName n c) : Starts c := by
  cases h with
  | lo h => exact starts_loName h
  | op h => exact starts_cons (x := '(') ⟨by decide, by decide, by decide⟩

theorem starts_op_cons {y : Char} {c : Str} (hy : OpChar y) (hne : y ≠ '-') (h : Starts c) :
    Starts (y :: c) := by
  obtain ⟨p, x, t, rfl, h1, h2, h3, h4, -⟩ := h
  refine ⟨y :: p, x, t, rfl, ?_, h2, h3, h4, ?_⟩
  · simp only [List.mem_cons, forall_eq_or_imp]
    exact ⟨hy, h1⟩
  · rintro t' e
    simp only [List.cons.injEq] at e
    exact hne e.1

theorem starts_digits {s d t : Str} (hs : Sign s) (hd : Digits d) : Starts (s ++ d ++ t) := by
  obtain ⟨hne, hd⟩ := hd
  cases d with
  | nil => exact absurd rfl hne
  | cons x d =>
    obtain ⟨h1, h2, h3⟩ := goodHead_digit (hd x (by simp))
    refine ⟨s, x, d ++ t, by simp, ?_, h1, h2, h3, ?_⟩
    · rcases hs with rfl | rfl | rfl <;> decide
    · rcases hs with rfl | rfl | rfl <;> simp

/-- Categories whose texts start like an expression. -/
def startsCat : Cat → Prop
  | .closed _ | .term _ | .app _ | .expr _ | .field _ | .upd _ | .target _ | .entry _ | .defn _
  | .fn _ | .branch _ => True
  | _ => False

theorem src_starts {st : Prop} {ind : Nat} {k : Cat} {c : Str} {j : Nat} (h : SrcAt st ind j k c) (hk : startsCat k) :
    Starts c := by
  have hb : ∀ x ∈ ['(', '[', '{', '"', '\''], ∀ t, Starts (x :: t) := by
    intro x hx t
    apply starts_cons
    simp only [List.mem_cons, List.not_mem_nil, or_false] at hx
    rcases hx with rfl | rfl | rfl | rfl | rfl <;> exact ⟨by decide, by decide, by decide⟩
  induction h with
  | var h => exact starts_varText h
  | access h => exact (starts_varText h).append
  | accessFn h => exact starts_op_cons (by decide) (by decide) (starts_loName h)
  | str0 => exact hb _ (by decide) _
  | int h =>
    obtain ⟨s, d, rfl, h1, h2⟩ := h
    have := starts_digits (t := []) h1 h2
    simpa using this
  | float h =>
    obtain ⟨s, d, e, rfl, h1, h2, -⟩ := h
    exact starts_digits h1 h2
  | closed _ ih => exact ih trivial
  | str1 => exact hb _ (by decide) _
  | str3 => exact hb _ (by decide) _
  | char => exact hb _ (by decide) _
  | parens => exact hb _ (by decide) _
  | list0 => exact hb _ (by decide) _
  | list => exact hb _ (by decide) _
  | tuple0 => exact hb _ (by decide) _
  | tuple1 => exact hb _ (by decide) _
  | tuple => exact hb _ (by decide) _
  | record0 => exact hb _ (by decide) _
  | record => exact hb _ (by decide) _
  | simp => exact hb _ (by decide) _
  | update => exact hb _ (by decide) _
  | update0 => exact hb _ (by decide) _
  | field h => simp only [List.append_assoc]; exact (starts_loName h).append
  | upd h => simp only [List.append_assoc]; exact (starts_loName h).append
  | app _ _ ih => exact (ih trivial).append
  | eApp _ ih => exact ih trivial
  | binop _ _ _ _ _ _ ih => simp only [List.append_assoc]; exact (ih trivial).append
  | let_ => exact starts_cons (x := 'l') (goodHead_lower (by decide))
  | case_ => exact starts_cons (x := 'c') (goodHead_lower (by decide))
  | if_ => exact starts_cons (x := 'i') (goodHead_lower (by decide))
  | lambda _ _ _ _ _ ih =>
    simp only [List.append_assoc]
    exact starts_op_cons (by decide) (by decide) ((ih trivial).append)
  | tVar h => exact starts_varText h
  | tList0 => exact hb _ (by decide) _
  | tList => exact hb _ (by decide) _
  | tTuple0 => exact hb _ (by decide) _
  | tTuple => exact hb _ (by decide) _
  | tRecord => exact hb _ (by decide) _
  | binding _ _ _ _ ih => simp only [List.append_assoc]; exact (ih trivial).append
  | function _ _ ih => exact ih trivial
  | defn h => simp only [List.append_assoc]; exact (starts_fnName h).append
  | fn _ ih => exact ih trivial
  | fnSig h => simp only [List.append_assoc]; exact (starts_fnName h).append
  | branch _ _ _ _ _ ih => simp only [List.append_assoc]; exact (ih trivial).append
  | items0 => exact hk.elim
  | items => exact hk.elim
  | comps0 => exact hk.elim
  | comps => exact hk.elim
  | fields0 => exact hk.elim
  | fields => exact hk.elim
  | upds0 => exact hk.elim
  | upds => exact hk.elim
  | args0 => exact hk.elim
  | args => exact hk.elim
  | largs0 => exact hk.elim
  | largs => exact hk.elim
  | entries0 => exact hk.elim
  | entries => exact hk.elim
  | fargs0 => exact hk.elim
  | fargs => exact hk.elim
  | branches0 => exact hk.elim
  | branches => exact hk.elim

theorem src_ne_nil {st : Prop} {ind : Nat} {k : Cat} {c : Str} {j : Nat} (h : SrcAt st ind j k c) (hk : startsCat k)
    (r : Str) : c ++ r ≠ [] := (src_starts h hk).append.ne_nil

/-! ### Lexical terms -/

theorem op_sound {s r : Str} {e : Expr} (h : op s = .ok e r) :
    ∃ ns c, e = .Variable ns ∧ s = c ++ r ∧ VarText ns c := by
  unfold op at h
  obtain ⟨o, h0, rfl⟩ := pmap_eq_ok.1 h
  obtain ⟨a, r1, r2, b, h1, h2, h3⟩ := delimited_eq_ok.1 h0
  obtain ⟨-, rfl⟩ := char_eq_ok.1 h1
  obtain ⟨-, rfl⟩ := char_eq_ok.1 h3
  rcases alt_eq_ok.1 h2 with h2 | ⟨-, h2⟩
  · obtain ⟨rfl, ho, -⟩ := operator_iff.1 h2
    exact ⟨_, c!"(" ++ o ++ c!")", rfl, by simp, .op ho⟩
  · rw [takeWhile1_iff] at h2
    obtain ⟨rfl, hne, hall, -⟩ := h2
    have : o = List.replicate (o.length - 1 + 1) ',' := by
      refine List.eq_replicate_iff.2 ⟨?_, fun c hc => by simpa using hall c hc⟩
      have := List.length_pos_iff.2 hne
      omega
    rw [this]
    exact ⟨_, _, rfl, by simp, .commas (n := o.length - 1)⟩

theorem variableP_sound {s r : Str} {e : Expr} (h : variableP s = .ok e r) :
    ∃ ns c, e = .Variable ns ∧ s = c ++ r ∧ VarText ns c := by
  unfold variableP at h
  rcases alt_eq_ok.1 h with h | ⟨-, h⟩
  · obtain ⟨n, h0, rfl⟩ := pmap_eq_ok.1 h
    obtain ⟨rfl, hn⟩ := loName_sound h0
    exact ⟨_, n, rfl, rfl, .lo hn⟩
  rcases alt_eq_ok.1 h with h | ⟨-, h⟩
  · obtain ⟨ns, h0, rfl⟩ := pmap_eq_ok.1 h
    obtain ⟨rfl, h1, h2, -⟩ := moduleName_iff.1 h0
    exact ⟨_, _, rfl, rfl, .up h1 h2⟩
  · exact op_sound h

theorem dotNames_sound {s r : Str} {ns : List Name} (h : Steps dotName s ns r) :
    s = dots ns ++ r ∧ ∀ n ∈ ns, LoName n := by
  induction h with
  | nil => exact ⟨rfl, by simp⟩
  | cons h1 _ ih =>
    obtain ⟨rfl, hv⟩ := ih
    unfold dotName at h1
    obtain ⟨_, r1, h1, h2⟩ := bind_eq_ok.1 h1
    obtain ⟨-, rfl⟩ := char_eq_ok.1 h1
    obtain ⟨rfl, hn⟩ := loName_sound h2
    refine ⟨by simp [dots], ?_⟩
    simp only [List.mem_cons, forall_eq_or_imp]
    exact ⟨hn, hv⟩

section
variable {st : Prop} {ind : Nat} {s r : Str} {e : Expr}

theorem access_sound (h : access s = .ok e r) : ∃ c, s = c ++ r ∧ Src st ind (.term e) c := by
  unfold access at h
  simp only [bind_eq_ok, pure_eq_ok] at h
  obtain ⟨v, r1, h1, ns, r2, h2, rfl, rfl⟩ := h
  obtain ⟨vs, c, rfl, rfl, hc⟩ := variableP_sound h1
  obtain ⟨n, ms, r3, rfl, h3, h5⟩ := many1_eq_ok.1 h2
  obtain ⟨rfl, hall⟩ := dotNames_sound (.cons h3 (many0_steps h5))
  exact ⟨_, by simp, .access hc hall⟩

theorem accessFunction_sound (h : accessFunction s = .ok e r) :
    ∃ c, s = c ++ r ∧ Src st ind (.term e) c := by
  unfold accessFunction at h
  simp only [bind_eq_ok, pure_eq_ok] at h
  obtain ⟨v, r1, h1, n, r2, h2, rfl, rfl⟩ := h
  obtain ⟨-, rfl⟩ := char_eq_ok.1 h1
  obtain ⟨rfl, hn⟩ := loName_sound h2
  exact ⟨_, by simp, .accessFn hn⟩

theorem string_sound (h : string s = .ok e r) : ∃ c, s = c ++ r ∧ Src st ind (.term e) c := by
  unfold string at h
  obtain ⟨m, h0, rfl⟩ := pmap_eq_ok.1 h
  rcases alt_eq_ok.1 h0 with h0 | ⟨-, h0⟩
  · obtain ⟨rfl, hm⟩ := multiString_iff.1 h0
    exact ⟨_, rfl, .closed (.str3 hm)⟩
  · obtain ⟨rfl, hm⟩ := singleString_iff.1 h0
    by_cases hne : m = []
    · subst hne
      exact ⟨_, rfl, .str0⟩
    · exact ⟨c!"\"" ++ m ++ c!"\"", by simp, .closed (.str1 hm hne)⟩
end

/-! ### Recursive terms -/

/-- The recursive parser is sound. -/
def ESound (rc : ExprRec) : Prop :=
  ∀ {ind s e r}, rc ind s = .ok e r → ∃ c, s = c ++ r ∧ Src False ind (.expr e) c

/-- After a gap and an optional gap, the first or the second is empty. -/
theorem twoGaps {ind : Nat} {o : Option Nat} {s g2 r : Str} {x : Char} (hx : ¬ White x) (hm : x ≠ '-')
    (h2 : opt (gap ind .GTE) s = .ok o (g2 ++ x :: r)) (hg2 : OptGapTxt ind .GTE g2) :
    ∃ g, s = g ++ x :: r ∧ OptGapTxt ind .GTE g := by
  have hN : NoGap (x :: r) := by
    refine ⟨next_cons.2 ⟨fun e => hx (by rw [e]; decide), fun e => hx (by rw [e]; decide)⟩, ?_⟩
    intro t e
    simp only [List.cons.injEq] at e
    exact hm e.1
  obtain ⟨g1, rfl, hg1⟩ := optGap_of_ok h2 (by simp)
  rcases opt_eq_ok.1 h2 with ⟨i, h6, -⟩ | ⟨-, -, h6⟩
  · obtain ⟨hn, -⟩ := gapTxt_of_ok h6 (by simp)
    have : g2 = [] := by
      rcases hg2 with rfl | ⟨j, hg2⟩
      · rfl
      · have := hg2.gap hN
        rw [gap_none hn] at this
        cases this
    subst this
    exact ⟨g1, by simp, hg1⟩
  · have : g1 = [] := by simpa using h6.symm
    subst this
    exact ⟨g2, by simp, hg2⟩

section
variable {rc : ExprRec} (hs : ESound rc) {ind : Nat} {s r : Str} {e : Expr}
include hs

theorem items_sound {es : List Expr} (h : Steps (preceded (commaSep ind) (rc ind)) s es r) :
    ∃ c, s = c ++ r ∧ Src False ind (.items es) c := by
  induction h with
  | nil s => exact ⟨[], rfl, .items0⟩
  | cons h1 _ ih =>
    obtain ⟨c, rfl, hc⟩ := ih
    obtain ⟨_, r1, h1, h2⟩ := preceded_eq_ok.1 h1
    obtain ⟨d, rfl, hd⟩ := hs h2
    obtain ⟨g1, g2, rfl, hg1, hg2⟩ := commaSep_of_ok h1 (src_ne_nil hd trivial _)
    exact ⟨g1 ++ c!"," ++ g2 ++ d ++ c, by simp, .items hg1 hg2 hd.any hc.any⟩

/-- Both as a term and as a target of a binding. -/
theorem list_sound (h : list rc ind s = .ok e r) :
    ∃ c, s = c ++ r ∧ Src False ind (.closed e) c ∧ Src False ind (.target e) c := by
  unfold list at h
  obtain ⟨o, h0, rfl⟩ := pmap_eq_ok.1 h
  obtain ⟨s1, r1, h1, o2, s2, h2, h3, g2, rfl, hg2⟩ := bracket_of_ok h0
  obtain ⟨-, rfl⟩ := char_eq_ok.1 h1
  have h3 : (o.getD [] = [] ∧ s2 = g2 ++ ']' :: r) ∨ ∃ v vs r1, o.getD [] = v :: vs ∧ rc ind s2 = .ok v r1 ∧
      Steps (preceded (commaSep ind) (rc ind)) r1 vs (g2 ++ ']' :: r) := by
    rcases opt_eq_ok.1 h3 with ⟨v, h', rfl⟩ | ⟨h', rfl, rfl⟩
    · rcases sepList_steps h' with ⟨rfl, h4, -⟩ | ⟨v, vs, r2, rfl, h4, h5⟩
      · exact .inl ⟨rfl, h4.symm⟩
      · exact .inr ⟨v, vs, r2, rfl, h4, h5⟩
    · exact .inl ⟨rfl, rfl⟩
  rcases h3 with ⟨e, rfl⟩ | ⟨v, vs, r2, e, h4, h5⟩
  · rw [e]
    obtain ⟨g, rfl, hg⟩ := twoGaps (by decide) (by decide) h2 hg2
    exact ⟨c!"[" ++ g ++ c!"]", by simp, .list0 hg, .tList0 hg⟩
  · rw [e]
    obtain ⟨c, rfl, hc⟩ := hs h4
    obtain ⟨d, rfl, hd⟩ := items_sound hs h5
    obtain ⟨g1, rfl, hg1⟩ := optGap_of_ok h2 (src_ne_nil hc trivial _)
    exact ⟨c!"[" ++ g1 ++ c ++ d ++ g2 ++ c!"]", by simp, .list hg1 hc.any hd.any hg2, .tList hg1 hc.any hd.any hg2⟩

theorem comp_sound (h : delimited multispace0 (rc ind) multispace0 s = .ok e r) :
    ∃ w1 c w2, s = w1 ++ c ++ w2 ++ r ∧ Whites w1 ∧ Src False ind (.expr e) c ∧ Whites w2 ∧
      rc ind (c ++ w2 ++ r) = .ok e (w2 ++ r) := by
  obtain ⟨w1, r1, r2, w2, h1, h2, h3⟩ := delimited_eq_ok.1 h
  obtain ⟨rfl, hw1, -⟩ := multispace0_iff.1 h1
  obtain ⟨rfl, hw2, -⟩ := multispace0_iff.1 h3
  obtain ⟨c, rfl, hc⟩ := hs h2
  exact ⟨w1, c, w2, by simp, hw1, hc, hw2, by simpa using h2⟩

theorem comps_sound {es : List Expr}
    (h : Steps (preceded (char ',') (delimited multispace0 (rc ind) multispace0)) s es r) :
    ∃ c, s = c ++ r ∧ Src False ind (.comps es) c := by
  induction h with
  | nil s => exact ⟨[], rfl, .comps0⟩
  | cons h1 _ ih =>
    obtain ⟨c, rfl, hc⟩ := ih
    obtain ⟨_, r1, h1, h2⟩ := preceded_eq_ok.1 h1
    obtain ⟨-, rfl⟩ := char_eq_ok.1 h1
    obtain ⟨w1, d, w2, rfl, hw1, hd, hw2, -⟩ := comp_sound hs h2
    exact ⟨c!"," ++ w1 ++ d ++ w2 ++ c, by simp, .comps hw1 hw2 hd.any hc.any⟩

/-- As a target of a binding; and as a term, where `(e)` has been read before. -/
theorem tuple_sound (h : tuple rc ind s = .ok e r) :
    ∃ c, s = c ++ r ∧ (parens rc ind s = .err → Src False ind (.closed e) c) ∧ Src False ind (.target e) c := by
  unfold tuple at h
  obtain ⟨es, h0, rfl⟩ := pmap_eq_ok.1 h
  obtain ⟨a, r1, r2, b, h1, h2, h3⟩ := delimited_eq_ok.1 h0
  obtain ⟨-, rfl⟩ := char_eq_ok.1 h1
  obtain ⟨-, rfl⟩ := char_eq_ok.1 h3
  rcases sepList_steps h2 with ⟨rfl, rfl, -⟩ | ⟨v, vs, r2, rfl, h4, h5⟩
  · exact ⟨c!"()", rfl, fun _ => .tuple0, .tTuple0⟩
  · obtain ⟨w1, c, w2, rfl, hw1, hc, hw2, hrc⟩ := comp_sound hs h4
    obtain ⟨d, rfl, hd⟩ := comps_sound hs h5
    refine ⟨c!"(" ++ w1 ++ c ++ w2 ++ d ++ c!")", by simp, fun hp => ?_, .tTuple hw1 hw2 hc.any hd.any⟩
    by_cases hvs : vs = []
    · subst hvs
      have : d = [] := by cases hd; rfl
      subst this
      simp only [List.append_nil]
      refine .tuple1 hw1 hw2 ?_ hc.any
      intro hw
      simp only [List.append_eq_nil_iff] at hw
      obtain ⟨rfl, rfl⟩ := hw
      unfold parens at hp
      simp only [List.nil_append, List.append_nil] at hrc hp
      rw [delimited_apply, char_cons, andThen_ok, hrc, andThen_ok, char_cons] at hp
      cases hp
    · exact .tuple hw1 hw2 hc.any hd.any hvs

theorem parens_sound (h : parens rc ind s = .ok e r) : ∃ c, s = c ++ r ∧ Src False ind (.closed e) c := by
  unfold parens at h
  obtain ⟨a, r1, r2, b, h1, h2, h3⟩ := delimited_eq_ok.1 h
  obtain ⟨-, rfl⟩ := char_eq_ok.1 h1
  obtain ⟨-, rfl⟩ := char_eq_ok.1 h3
  obtain ⟨c, rfl, hc⟩ := hs h2
  exact ⟨c!"(" ++ c ++ c!")", by simp, .parens hc.any⟩

theorem recordField_sound {f : Name × Expr} (h : recordField rc ind s = .ok f r) :
    ∃ c, s = c ++ r ∧ Src False ind (.field f) c := by
  unfold recordField at h
  obtain ⟨r1, b, r2, h1, h2, h3⟩ := separatedPair_eq_ok.1 h
  obtain ⟨n, e⟩ := f
  obtain ⟨rfl, hn⟩ := loName_sound h1
  obtain ⟨c, rfl, hc⟩ := hs h3
  obtain ⟨_, r3, r4, _, h4, h5, h6⟩ := delimited_eq_ok.1 h2
  obtain ⟨g2, rfl, hg2⟩ := optGap_of_ok h6 (src_ne_nil hc trivial _)
  obtain ⟨g1, rfl, hg1⟩ := optGap_of_ok h4 (char_ne_nil h5)
  obtain ⟨-, rfl⟩ := char_eq_ok.1 h5
  exact ⟨n ++ g1 ++ c!"=" ++ g2 ++ c, by simp, .field hn hg1 hg2 hc.any⟩

theorem fields_sound {fs : List (Name × Expr)}
    (h : Steps (preceded (commaSep ind) (recordField rc ind)) s fs r) :
    ∃ c, s = c ++ r ∧ Src False ind (.fields fs) c := by
  induction h with
  | nil s => exact ⟨[], rfl, .fields0⟩
  | cons h1 _ ih =>
    obtain ⟨c, rfl, hc⟩ := ih
    obtain ⟨_, r1, h1, h2⟩ := preceded_eq_ok.1 h1
    obtain ⟨d, rfl, hd⟩ := recordField_sound hs h2
    obtain ⟨g1, g2, rfl, hg1, hg2⟩ := commaSep_of_ok h1 (src_ne_nil hd trivial _)
    exact ⟨g1 ++ c!"," ++ g2 ++ d ++ c, by simp, .fields hg1 hg2 hd.any hc.any⟩

theorem record_sound (h : record rc ind s = .ok e r) : ∃ c, s = c ++ r ∧ Src False ind (.closed e) c := by
  unfold record at h
  obtain ⟨fs, h0, rfl⟩ := pmap_eq_ok.1 h
  obtain ⟨s1, r1, h1, o2, s2, h2, h3, g2, rfl, hg2⟩ := bracket_of_ok h0
  obtain ⟨-, rfl⟩ := char_eq_ok.1 h1
  rcases sepList_steps h3 with ⟨rfl, rfl, -⟩ | ⟨v, vs, r2, rfl, h4, h5⟩
  · obtain ⟨g, rfl, hg⟩ := twoGaps (by decide) (by decide) h2 hg2
    exact ⟨c!"{" ++ g ++ c!"}", by simp, .record0 hg⟩
  · obtain ⟨c, rfl, hc⟩ := recordField_sound hs h4
    obtain ⟨d, rfl, hd⟩ := fields_sound hs h5
    obtain ⟨g1, rfl, hg1⟩ := optGap_of_ok h2 (src_ne_nil hc trivial _)
    exact ⟨c!"{" ++ g1 ++ c ++ d ++ g2 ++ c!"}", by simp, .record hg1 hc.any hd.any hg2⟩

omit hs in
theorem simplifiedField_sound {f : Name × Expr} (h : simplifiedField s = .ok f r) :
    ∃ w1 n w2, f = (n, .Variable [n]) ∧ s = w1 ++ n ++ w2 ++ r ∧ LoName n ∧ Whites w1 ∧ Whites w2 := by
  unfold simplifiedField at h
  simp only [bind_eq_ok, pure_eq_ok] at h
  obtain ⟨w1, r1, h1, n, r2, h2, w2, r3, h3, rfl, rfl⟩ := h
  obtain ⟨rfl, hw1, -⟩ := multispace0_iff.1 h1
  obtain ⟨rfl, hn⟩ := loName_sound h2
  obtain ⟨rfl, hw2, -⟩ := multispace0_iff.1 h3
  exact ⟨w1, n, w2, rfl, by simp, hn, hw1, hw2⟩

omit hs in
theorem simplifiedFields_sound {fs : List (Name × Expr)}
    (h : Steps (preceded (char ',') simplifiedField) s fs r) : ∃ c, s = c ++ r ∧ SimpFields fs c := by
  induction h with
  | nil s => exact ⟨[], rfl, .nil⟩
  | cons h1 _ ih =>
    obtain ⟨c, rfl, hc⟩ := ih
    obtain ⟨_, r1, h1, h2⟩ := preceded_eq_ok.1 h1
    obtain ⟨-, rfl⟩ := char_eq_ok.1 h1
    obtain ⟨w1, n, w2, rfl, rfl, hn, hw1, hw2⟩ := simplifiedField_sound h2
    exact ⟨c!"," ++ w1 ++ n ++ w2 ++ c, by simp, .cons hn hw1 hw2 hc⟩

omit hs in
theorem simplifiedRecord_sound' (h : simplifiedRecord s = .ok e r) :
    ∃ fs c, e = .Record fs ∧ s = c!"{" ++ c ++ c!"}" ++ r ∧ SimpBody fs c := by
  unfold simplifiedRecord at h
  obtain ⟨fs, h0, rfl⟩ := pmap_eq_ok.1 h
  obtain ⟨a, r1, r2, b, h1, h2, h3⟩ := delimited_eq_ok.1 h0
  obtain ⟨-, rfl⟩ := char_eq_ok.1 h1
  obtain ⟨-, rfl⟩ := char_eq_ok.1 h3
  rcases sepList_steps h2 with ⟨rfl, rfl, -⟩ | ⟨v, vs, r2, rfl, h4, h5⟩
  · exact ⟨_, [], rfl, by simp, .nil⟩
  · obtain ⟨w1, n, w2, rfl, rfl, hn, hw1, hw2⟩ := simplifiedField_sound h4
    obtain ⟨c, rfl, hc⟩ := simplifiedFields_sound h5
    exact ⟨_, w1 ++ n ++ w2 ++ c, rfl, by simp, .cons hn hw1 hw2 hc⟩

omit hs in
theorem simplifiedRecord_sound {st : Prop} (h : simplifiedRecord s = .ok e r) :
    ∃ c, s = c ++ r ∧ Src st ind (.closed e) c ∧ Src st ind (.target e) c := by
  obtain ⟨fs, c, rfl, rfl, hc⟩ := simplifiedRecord_sound' h
  refine ⟨_, rfl, ?_, .tRecord hc⟩
  cases fs with
  | nil => cases hc; exact .record0 (.inl rfl)
  | cons f fs => exact .simp hc

theorem updateField_sound {f : Name × Expr} (h : updateField rc ind s = .ok f r) :
    ∃ c, s = c ++ r ∧ Src False ind (.upd f) c := by
  unfold updateField at h
  simp only [bind_eq_ok, pure_eq_ok] at h
  obtain ⟨n, r1, h1, w1, r2, h2, _, r3, h3, w2, r4, h4, e, r5, h5, rfl, rfl⟩ := h
  obtain ⟨rfl, hn⟩ := loName_sound h1
  obtain ⟨rfl, hw1, -⟩ := multispace0_iff.1 h2
  obtain ⟨-, rfl⟩ := char_eq_ok.1 h3
  obtain ⟨rfl, hw2, -⟩ := multispace0_iff.1 h4
  obtain ⟨c, rfl, hc⟩ := hs h5
  exact ⟨n ++ w1 ++ c!"=" ++ w2 ++ c, by simp, .upd hn hw1 hw2 hc.any⟩

theorem upds_sound {fs : List (Name × Expr)}
    (h : Steps (preceded (delimited (optGap ind .GTE) (char ',') (optGap ind .GTE)) (updateField rc ind))
      s fs r) : ∃ c, s = c ++ r ∧ Src False ind (.upds fs) c := by
  induction h with
  | nil s => exact ⟨[], rfl, .upds0⟩
  | cons h1 _ ih =>
    obtain ⟨c, rfl, hc⟩ := ih
    obtain ⟨_, r1, h1, h2⟩ := preceded_eq_ok.1 h1
    obtain ⟨d, rfl, hd⟩ := updateField_sound hs h2
    obtain ⟨_, r3, r4, _, h4, h5, h6⟩ := delimited_eq_ok.1 h1
    obtain ⟨g2, rfl, hg2⟩ := optGap'_of_ok h6 (src_ne_nil hd trivial _)
    obtain ⟨g1, rfl, hg1⟩ := optGap'_of_ok h4 (char_ne_nil h5)
    obtain ⟨-, rfl⟩ := char_eq_ok.1 h5
    exact ⟨g1 ++ c!"," ++ g2 ++ d ++ c, by simp, .upds hg1 hg2 hd.any hc.any⟩

theorem recordUpdate_sound (h : recordUpdate rc ind s = .ok e r) :
    ∃ c, s = c ++ r ∧ Src False ind (.closed e) c := by
  unfold recordUpdate at h
  obtain ⟨a, r1, r2, b, h1, h2, h3⟩ := delimited_eq_ok.1 h
  simp only [bind_eq_ok, pure_eq_ok] at h2
  obtain ⟨n, s1, k1, _, s2, k2, _, s3, k3, w, s4, k4, fs, s5, k5, rfl, rfl⟩ := h2
  obtain ⟨_, s6, k6, k7⟩ := preceded_eq_ok.1 h1
  obtain ⟨-, rfl⟩ := char_eq_ok.1 k6
  obtain ⟨g1, rfl, hg1⟩ := optGap'_of_ok k7 (loName_ne_nil k1)
  obtain ⟨rfl, hn⟩ := loName_sound k1
  obtain ⟨g2, rfl, hg2⟩ := optGap'_of_ok k2 (char_ne_nil k3)
  obtain ⟨-, rfl⟩ := char_eq_ok.1 k3
  obtain ⟨rfl, hw, hw'⟩ := multispace0_iff.1 k4
  obtain ⟨s7, _, k8, k9⟩ := terminated_eq_ok.1 h3
  obtain ⟨-, g3, rfl, hg3⟩ := gapTxt_of_ok k8 (char_ne_nil k9)
  obtain ⟨-, rfl⟩ := char_eq_ok.1 k9
  rcases sepList_steps k5 with ⟨rfl, rfl, -⟩ | ⟨v, vs, r2, rfl, h4, h5⟩
  · obtain ⟨x, t, rfl, h6⟩ := hg3.cons
    have : x = '-' := by
      have := next_cons.1 hw'
      rcases h6 with rfl | rfl | ⟨rfl, -⟩
      · exact absurd (by decide) this
      · exact absurd (by decide) this
      · rfl
    subst this
    exact ⟨c!"{" ++ g1 ++ n ++ g2 ++ c!"|" ++ w ++ ('-' :: t) ++ c!"}", by simp,
      .update0 hg1 hn hg2 hw hg3⟩
  · obtain ⟨c, rfl, hc⟩ := updateField_sound hs h4
    obtain ⟨d, rfl, hd⟩ := upds_sound hs h5
    exact ⟨c!"{" ++ g1 ++ n ++ g2 ++ c!"|" ++ w ++ c ++ d ++ g3 ++ c!"}", by simp,
      .update hg1 hn hg2 hw hc.any hd.any hg3⟩

theorem termF_sound (h : termF rc ind s = .ok e r) : ∃ c, s = c ++ r ∧ Src False ind (.term e) c := by
  unfold termF at h
  rcases alt_eq_ok.1 h with h | ⟨-, h⟩
  · exact access_sound h
  rcases alt_eq_ok.1 h with h | ⟨-, h⟩
  · obtain ⟨ns, c, rfl, rfl, hc⟩ := variableP_sound h
    exact ⟨c, rfl, .var hc⟩
  rcases alt_eq_ok.1 h with h | ⟨-, h⟩
  · exact accessFunction_sound h
  rcases alt_eq_ok.1 h with h | ⟨-, h⟩
  · exact string_sound h
  rcases alt_eq_ok.1 h with h | ⟨-, h⟩
  · obtain ⟨w, rfl, rfl, hw, -⟩ := float_iff.1 h
    exact ⟨w, rfl, .float hw⟩
  rcases alt_eq_ok.1 h with h | ⟨-, h⟩
  · obtain ⟨w, rfl, rfl, hw, -⟩ := integer_iff.1 h
    exact ⟨w, rfl, .int hw⟩
  rcases alt_eq_ok.1 h with h | ⟨-, h⟩
  · obtain ⟨w, x, rfl, rfl, hw⟩ := character_iff.1 h
    exact ⟨c!"'" ++ w ++ c!"'", by simp, .closed (.char hw)⟩
  rcases alt_eq_ok.1 h with h | ⟨hp, h⟩
  · obtain ⟨c, rfl, hc⟩ := parens_sound hs h
    exact ⟨c, rfl, .closed hc⟩
  rcases alt_eq_ok.1 h with h | ⟨-, h⟩
  · obtain ⟨c, rfl, hc, -⟩ := list_sound hs h
    exact ⟨c, rfl, .closed hc⟩
  rcases alt_eq_ok.1 h with h | ⟨-, h⟩
  · obtain ⟨c, rfl, hc, -⟩ := tuple_sound hs h
    exact ⟨c, rfl, .closed (hc hp)⟩
  rcases alt_eq_ok.1 h with h | ⟨-, h⟩
  · obtain ⟨c, rfl, hc⟩ := recordUpdate_sound hs h
    exact ⟨c, rfl, .closed hc⟩
  rcases alt_eq_ok.1 h with h | ⟨-, h⟩
  · obtain ⟨c, rfl, hc⟩ := record_sound hs h
    exact ⟨c, rfl, .closed hc⟩
  · obtain ⟨c, rfl, hc, -⟩ := simplifiedRecord_sound (ind := ind) (st := False) h
    exact ⟨c, rfl, .closed hc⟩

/-! ### Compound expressions -/

theorem args_sound {es : List Expr} (h : Steps (preceded (gap ind .GT) (termF rc ind)) s es r) :
    ∃ c, s = c ++ r ∧ Src False ind (.args es) c := by
  induction h with
  | nil s => exact ⟨[], rfl, .args0⟩
  | cons h1 _ ih =>
    obtain ⟨c, rfl, hc⟩ := ih
    obtain ⟨_, r1, h1, h2⟩ := preceded_eq_ok.1 h1
    obtain ⟨d, rfl, hd⟩ := termF_sound hs h2
    obtain ⟨-, g, rfl, hg⟩ := gapTxt_of_ok h1 (src_ne_nil hd trivial _)
    exact ⟨g ++ d ++ c, by simp, .args hg hd hc⟩

omit hs in
/-- The vector of terms becomes a left-nested application. -/
theorem applicationOrVar_eq_ok : applicationOrVar rc ind s = .ok e r ↔
    ∃ v vs, e = vs.foldl .Application v ∧ sepList (gap ind .GT) (termF rc ind) s = .ok (v :: vs) r := by
  unfold applicationOrVar
  rw [bind_eq_ok]
  constructor
  · rintro ⟨l, r1, h1, h2⟩
    match l with
    | [] => simp [fail_apply] at h2
    | [v] =>
      simp only [List.isEmpty_cons, Bool.false_eq_true, if_false, List.length_cons, List.length_nil,
        Nat.zero_add, beq_self_eq_true, if_true, index_eq_ok, List.getElem?_cons_zero,
        Option.some.injEq] at h2
      obtain ⟨rfl, rfl⟩ := h2
      exact ⟨v, [], rfl, h1⟩
    | v :: u :: us =>
      rw [if_neg (by simp), if_neg (by simp)] at h2
      simp only [bind_eq_ok, pure_eq_ok, index_eq_ok, List.getElem?_cons_zero, List.getElem?_cons_succ,
        Option.some.injEq] at h2
      obtain ⟨_, _, ⟨rfl, rfl⟩, _, _, ⟨rfl, rfl⟩, rfl, rfl⟩ := h2
      exact ⟨v, u :: us, rfl, h1⟩
  · rintro ⟨v, vs, rfl, h⟩
    refine ⟨_, _, h, ?_⟩
    cases vs with
    | nil => rfl
    | cons u us => rfl

theorem applicationOrVar_sound (h : applicationOrVar rc ind s = .ok e r) :
    ∃ c, s = c ++ r ∧ Src False ind (.app e) c := by
  obtain ⟨v, vs, rfl, h0⟩ := applicationOrVar_eq_ok.1 h
  rcases sepList_steps h0 with ⟨h1, -⟩ | ⟨_, _, r1, h1, h2, h3⟩
  · cases h1
  · simp only [List.cons.injEq] at h1
    obtain ⟨rfl, rfl⟩ := h1
    obtain ⟨c, rfl, hc⟩ := termF_sound hs h2
    obtain ⟨d, rfl, hd⟩ := args_sound hs h3
    exact ⟨c ++ d, by simp, .app hc hd⟩

omit hs in
theorem operatorOrAs_sound (h : operatorOrAs s = .ok e r) :
    ∃ o, e = .Variable [o] ∧ s = o ++ r ∧ (o = c!"as" ∨ Operator o) := by
  unfold operatorOrAs at h
  obtain ⟨o, h0, rfl⟩ := pmap_eq_ok.1 h
  rcases alt_eq_ok.1 h0 with h0 | ⟨-, h0⟩
  · obtain ⟨rfl, rfl⟩ := tag_eq_ok.1 h0
    exact ⟨_, rfl, rfl, .inl rfl⟩
  · obtain ⟨rfl, ho, -⟩ := operator_iff.1 h0
    exact ⟨_, rfl, rfl, .inr ho⟩

theorem binary_sound (h : binary rc ind s = .ok e r) :
    ∃ c, s = c ++ r ∧ Src False ind (.expr e) c := by
  unfold binary at h
  simp only [bind_eq_ok, pure_eq_ok] at h
  obtain ⟨a, r1, h1, o, r2, h2, rfl, rfl⟩ := h
  obtain ⟨c, rfl, hc⟩ := applicationOrVar_sound hs h1
  rcases opt_eq_ok.1 h2 with ⟨v, h3, rfl⟩ | ⟨-, rfl, rfl⟩
  · unfold binaryTail at h3
    simp only [bind_eq_ok, pure_eq_ok] at h3
    obtain ⟨i, s1, k1, op, s2, k2, w, s3, k3, b, s4, k4, rfl, rfl⟩ := h3
    obtain ⟨d, rfl, hd⟩ := hs k4
    obtain ⟨rfl, hw', hw, -⟩ := multispace_iff.1 k3
    obtain ⟨o, rfl, rfl, ho⟩ := operatorOrAs_sound k2
    have hne : o ++ (w ++ (d ++ s4)) ≠ [] := by
      rcases ho with rfl | ho
      · simp
      · simp [ho.1]
    obtain ⟨hn, g, rfl, hg⟩ := gapTxt_of_ok k1 hne
    refine ⟨c ++ g ++ o ++ w ++ d, by simp, .binop hc hg ?_ hw hw' hd⟩
    rcases ho with rfl | ho
    · exact .inl rfl
    · refine .inr ⟨ho, ?_⟩
      rintro t rfl
      exact hn.2 _ rfl
  · exact ⟨c, rfl, .eApp hc⟩

omit hs in
theorem space1_iff {w : Str} : space1 s = .ok w r ↔
    s = w ++ r ∧ BlanksTxt w ∧ Next (fun c => c ≠ ' ' ∧ c ≠ '\t') r := by
  unfold space1 BlanksTxt
  rw [takeWhile1_iff]
  simp only [NotStart, Next, decide_eq_true_eq, decide_eq_false_iff_not, and_assoc, not_or, ne_eq]

theorem largs_sound {es : List Expr} (h : Steps (preceded space1 (termF rc ind)) s es r) :
    ∃ c, s = c ++ r ∧ Src False ind (.largs es) c := by
  induction h with
  | nil s => exact ⟨[], rfl, .largs0⟩
  | cons h1 _ ih =>
    obtain ⟨c, rfl, hc⟩ := ih
    obtain ⟨w, r1, h1, h2⟩ := preceded_eq_ok.1 h1
    obtain ⟨d, rfl, hd⟩ := termF_sound hs h2
    obtain ⟨rfl, hw, -⟩ := space1_iff.1 h1
    exact ⟨w ++ d ++ c, by simp, .largs hw hd hc⟩

theorem lambda_sound (h : lambda rc ind s = .ok e r) : ∃ c, s = c ++ r ∧ Src False ind (.expr e) c := by
  unfold lambda at h
  simp only [bind_eq_ok, pure_eq_ok] at h
  obtain ⟨_, s1, k1, as, s2, k2, i1, s3, k3, _, s4, k4, i2, s5, k5, b, s6, k6, rfl, rfl⟩ := h
  obtain ⟨-, rfl⟩ := char_eq_ok.1 k1
  obtain ⟨a, as, s7, rfl, k7, k8⟩ := sepNonemptyList_steps k2
  obtain ⟨c, rfl, hc⟩ := termF_sound hs k7
  obtain ⟨cs, rfl, hcs⟩ := largs_sound hs k8
  obtain ⟨d, rfl, hd⟩ := hs k6
  obtain ⟨-, g2, rfl, hg2⟩ := gapTxt_of_ok k5 (src_ne_nil hd trivial _)
  obtain ⟨-, g1, rfl, hg1⟩ := gapTxt_of_ok k3 (tag_ne_nil k4)
  obtain ⟨-, rfl⟩ := tag_eq_ok.1 k4
  exact ⟨c!"\\" ++ c ++ cs ++ g1 ++ c!"->" ++ g2 ++ d, by simp, .lambda hc hcs hg1 hg2 hd.any⟩

omit hs in
theorem functionNameOrOp_sound {n : Name} (h : functionNameOrOp s = .ok n r) :
    ∃ c, s = c ++ r ∧ FnName n c := by
  unfold functionNameOrOp at h
  rcases alt_eq_ok.1 h with h | ⟨-, h⟩
  · obtain ⟨rfl, hn⟩ := loName_sound h
    exact ⟨n, rfl, .lo hn⟩
  · obtain ⟨_, r1, r2, _, h1, h2, h3⟩ := delimited_eq_ok.1 h
    obtain ⟨-, rfl⟩ := char_eq_ok.1 h1
    obtain ⟨-, rfl⟩ := char_eq_ok.1 h3
    obtain ⟨rfl, ho, -⟩ := operator_iff.1 h2
    exact ⟨c!"(" ++ n ++ c!")", by simp, .op ho⟩

omit hs in
theorem functionSignature_sound {sg : FunctionSignature} (h : functionSignature ind s = .ok sg r) :
    ∃ m w i g c, s = m ++ w ++ c!":" ++ g ++ c ++ r ∧ FnName sg.name m ∧ SpacesTxt w ∧ GapTxt ind .GT i g ∧
      TySrc i (.ann sg.type_) c := by
  unfold functionSignature at h
  simp only [bind_eq_ok, pure_eq_ok] at h
  obtain ⟨n, s1, k1, w, s2, k2, _, s3, k3, i, s4, k4, t, s5, k5, rfl, rfl⟩ := h
  obtain ⟨m, rfl, hm⟩ := functionNameOrOp_sound k1
  obtain ⟨rfl, hw, hw', -⟩ := spaces_iff.1 k2
  obtain ⟨-, rfl⟩ := char_eq_ok.1 k3
  obtain ⟨c, rfl, hc⟩ := typeAnnotation_sound k5
  obtain ⟨-, g, rfl, hg⟩ := gapTxt_of_ok k4 (tySrc_ne_nil hc trivial)
  exact ⟨m, w, i, g, c, by simp, hm, ⟨hw, hw'⟩, hg, hc⟩

theorem fargs_sound {es : List Expr} (h : Steps (preceded spaces (termF rc ind)) s es r) :
    ∃ c, s = c ++ r ∧ Src False ind (.fargs es) c := by
  induction h with
  | nil s => exact ⟨[], rfl, .fargs0⟩
  | cons h1 _ ih =>
    obtain ⟨c, rfl, hc⟩ := ih
    obtain ⟨w, r1, h1, h2⟩ := preceded_eq_ok.1 h1
    obtain ⟨d, rfl, hd⟩ := termF_sound hs h2
    obtain ⟨rfl, hw, hw', -⟩ := spaces_iff.1 h1
    exact ⟨w ++ d ++ c, by simp, .fargs ⟨hw, hw'⟩ hd hc⟩

theorem functionDefinitionF_sound {d : FunctionDefinition} (h : functionDefinitionF rc ind s = .ok d r) :
    ∃ c, s = c ++ r ∧ Src False ind (.defn d) c := by
  unfold functionDefinitionF at h
  simp only [bind_eq_ok, pure_eq_ok] at h
  obtain ⟨n, s1, k1, as, s2, k2, w, s3, k3, _, s4, k4, i, s5, k5, b, s6, k6, rfl, rfl⟩ := h
  obtain ⟨m, rfl, hm⟩ := functionNameOrOp_sound k1
  obtain ⟨cs, rfl, hcs⟩ := fargs_sound hs (many0_steps k2)
  obtain ⟨rfl, hw, hw', -⟩ := spaces_iff.1 k3
  obtain ⟨-, rfl⟩ := char_eq_ok.1 k4
  obtain ⟨c, rfl, hc⟩ := hs k6
  obtain ⟨-, g, rfl, hg⟩ := gapTxt_of_ok k5 (src_ne_nil hc trivial _)
  exact ⟨m ++ cs ++ w ++ c!"=" ++ g ++ c, by simp, .defn hm hcs ⟨hw, hw'⟩ hg hc.any⟩

omit hs in
theorem spaces0_iff {w : Str} :
    spaces0 s = .ok w r ↔ s = w ++ r ∧ (∀ c ∈ w, c = ' ') ∧ Next (· ≠ ' ') r := by
  constructor
  · intro h
    unfold spaces0 at h
    obtain ⟨o, h0, rfl⟩ := pmap_eq_ok.1 h
    change opt spaces s = _ at h0
    rcases opt_eq_ok.1 h0 with ⟨v, h4, rfl⟩ | ⟨h4, rfl, rfl⟩
    · obtain ⟨h1, -, h2, h3⟩ := spaces_iff.1 h4
      exact ⟨h1, h2, h3⟩
    · exact ⟨rfl, by simp, spaces_err.1 h4⟩
  · rintro ⟨rfl, h, h'⟩
    have : w = sp w.length := List.eq_replicate_iff.2 ⟨rfl, h⟩
    rw [this]
    exact spaces0_sp h'

omit hs in
theorem newLineAndSameIndent_iff {i : Nat} : newLineAndSameIndent ind s = .ok i r ↔
    i = ind ∧ ∃ k, s = '\n' :: (sp k ++ r) ∧ k % 4294967296 = ind ∧ Next (· ≠ ' ') r := by
  unfold newLineAndSameIndent
  simp only [mapRes_eq_ok, preceded_eq_ok, char_eq_ok, pmap_eq_ok, spaces0_iff, asU32]
  constructor
  · rintro ⟨v, ⟨_, r1, ⟨rfl, rfl⟩, w, ⟨rfl, hw, hr⟩, rfl⟩, h⟩
    split at h
    · next e =>
      simp only [Option.some.injEq] at h
      subst h
      rw [beq_iff_eq] at e
      refine ⟨e, w.length, ?_, e, hr⟩
      rw [show sp w.length = w from (List.eq_replicate_iff.2 ⟨rfl, hw⟩).symm]
    · cases h
  · rintro ⟨rfl, k, rfl, h, hr⟩
    refine ⟨_, ⟨_, _, ⟨rfl, rfl⟩, sp k, ⟨rfl, ?_, hr⟩, rfl⟩, ?_⟩
    · intro c hc
      exact List.eq_of_mem_replicate hc
    · simp [sp, h]

theorem functionF_sound {f : Function} (h : functionF rc ind s = .ok f r) :
    ∃ c, s = c ++ r ∧ Src False ind (.fn f) c := by
  unfold functionF at h
  simp only [bind_eq_ok, pure_eq_ok] at h
  obtain ⟨o, s1, k1, d, s2, k2, rfl, rfl⟩ := h
  obtain ⟨c, rfl, hc⟩ := functionDefinitionF_sound hs k2
  rcases opt_eq_ok.1 k1 with ⟨sg, k3, rfl⟩ | ⟨-, rfl, rfl⟩
  · obtain ⟨s3, i, k4, k5⟩ := terminated_eq_ok.1 k3
    obtain ⟨-, k, rfl, hk, -⟩ := newLineAndSameIndent_iff.1 k5
    obtain ⟨m, w, i, g, t, rfl, hm, hw, hg, ht⟩ := functionSignature_sound k4
    exact ⟨m ++ w ++ c!":" ++ g ++ t ++ '\n' :: (sp k ++ c), by simp, .fnSig hm hw hg ht hk hc⟩
  · exact ⟨c, rfl, .fn hc⟩

theorem letBindingTarget_sound (h : letBindingTarget rc ind s = .ok e r) :
    ∃ c, s = c ++ r ∧ Src False ind (.target e) c := by
  unfold letBindingTarget at h
  rcases alt_eq_ok.1 h with h | ⟨-, h⟩
  · obtain ⟨ns, c, rfl, rfl, hc⟩ := variableP_sound h
    exact ⟨c, rfl, .tVar hc⟩
  rcases alt_eq_ok.1 h with h | ⟨-, h⟩
  · obtain ⟨c, rfl, -, hc⟩ := list_sound hs h
    exact ⟨c, rfl, hc⟩
  rcases alt_eq_ok.1 h with h | ⟨-, h⟩
  · obtain ⟨c, rfl, -, hc⟩ := tuple_sound hs h
    exact ⟨c, rfl, hc⟩
  · obtain ⟨c, rfl, -, hc⟩ := simplifiedRecord_sound (ind := ind) (st := False) h
    exact ⟨c, rfl, hc⟩

theorem letBinding_sound {l : LetEntry} (h : letBinding rc ind s = .ok l r) :
    ∃ c, s = c ++ r ∧ Src False ind (.entry l) c := by
  unfold letBinding at h
  simp only [bind_eq_ok, pure_eq_ok] at h
  obtain ⟨t, s1, k1, i1, s2, k2, _, s3, k3, i2, s4, k4, b, s5, k5, rfl, rfl⟩ := h
  obtain ⟨c, rfl, hc⟩ := letBindingTarget_sound hs k1
  obtain ⟨d, rfl, hd⟩ := hs k5
  obtain ⟨-, g2, rfl, hg2⟩ := gapTxt_of_ok k4 (src_ne_nil hd trivial _)
  obtain ⟨-, g1, rfl, hg1⟩ := gapTxt_of_ok k2 (char_ne_nil k3)
  obtain ⟨-, rfl⟩ := char_eq_ok.1 k3
  exact ⟨c ++ g1 ++ c!"=" ++ g2 ++ d, by simp, .binding hc hg1 hg2 hd.any⟩

omit hs in
theorem gapTxt_spaces {w : Str} (ind : Nat) (ir : IR) (h : SpacesTxt w) : GapTxt ind ir ind w := by
  refine ⟨[], w.length, ?_, h.1, by simp, .inl ⟨rfl, rfl⟩⟩
  simp only [gapText, Line.text, commentText, List.append_nil]
  exact List.eq_replicate_iff.2 ⟨rfl, h.2⟩

omit hs in
theorem Spec.GapTxt.gte {i : Nat} {g : Str} (h : GapTxt ind .GT i g) : GapTxt ind .GTE i g := by
  obtain ⟨ls, n, h1, h2, h3, h4⟩ := h
  refine ⟨ls, n, h1, h2, h3, h4.imp id fun h => ⟨h.1, h.2.1, ?_⟩⟩
  have := h.2.2
  simp only [Rel] at *
  omega

omit hs in
/-- The name of a function is also a variable. -/
theorem variableP_of_functionName {n : Name} (h : functionNameOrOp s = .ok n r) :
    variableP s = .ok (.Variable [n]) r := by
  unfold functionNameOrOp at h
  unfold variableP
  rcases alt_eq_ok.1 h with h | ⟨h', h⟩
  · exact alt_eq_ok.2 (.inl (pmap_eq_ok.2 ⟨n, h, rfl⟩))
  · refine alt_eq_ok.2 (.inr ⟨?_, alt_eq_ok.2 (.inr ⟨?_, ?_⟩)⟩)
    · unfold lowerCase
      rw [pmap_apply, h']
      rfl
    · obtain ⟨_, r1, r2, _, h1, h2, h3⟩ := delimited_eq_ok.1 h
      obtain ⟨-, rfl⟩ := char_eq_ok.1 h1
      unfold upperWithDots
      rw [pmap_apply, upDots_err (by decide)]
      rfl
    · obtain ⟨a, r1, r2, b, h1, h2, h3⟩ := delimited_eq_ok.1 h
      exact pmap_eq_ok.2 ⟨n, delimited_eq_ok.2 ⟨a, r1, r2, b, h1, alt_eq_ok.2 (.inl h2), h3⟩, rfl⟩

/-- A function without signature and arguments is read as a binding. -/
theorem letBinding_of_functionF {n : Name} (h : functionF rc ind s = .ok (.mk none (.mk n [] e)) r) :
    letBinding rc ind s = .ok (.LetBinding (.Variable [n]) e) r := by
  unfold functionF at h
  simp only [bind_eq_ok, pure_eq_ok] at h
  obtain ⟨o, s1, k1, d, s2, k2, e0, rfl⟩ := h
  simp only [Function.mk.injEq] at e0
  obtain ⟨rfl, rfl⟩ := e0
  rcases opt_eq_ok.1 k1 with ⟨sg, k3, e0⟩ | ⟨-, -, rfl⟩
  · cases e0
  unfold functionDefinitionF at k2
  simp only [bind_eq_ok, pure_eq_ok] at k2
  obtain ⟨n, s1, k1, as, s2, k2, w, s3, k3, _, s4, k4, i, s5, k5, b, s6, k6, e0, rfl⟩ := k2
  simp only [FunctionDefinition.mk.injEq] at e0
  obtain ⟨rfl, rfl, rfl⟩ := e0
  cases many0_steps k2
  obtain ⟨rfl, hw, hw', -⟩ := spaces_iff.1 k3
  obtain ⟨-, rfl⟩ := char_eq_ok.1 k4
  have hne : s5 ≠ [] := by
    obtain ⟨c, rfl, hc⟩ := hs k6
    exact src_ne_nil hc trivial _
  obtain ⟨hn, g, rfl, hg⟩ := gapTxt_of_ok k5 hne
  unfold letBinding letBindingTarget
  simp only [bind_eq_ok, pure_eq_ok]
  exact ⟨_, _, alt_eq_ok.2 (.inl (variableP_of_functionName k1)), _, _,
    (gapTxt_spaces ind .GTE ⟨hw, hw'⟩).gap ⟨next_cons.2 (by decide), by simp⟩, _, _, char_cons _ _,
    _, _, hg.gte.gap hn, _, _, k6, rfl, rfl⟩

theorem letEntry_sound {l : LetEntry} (h : letEntry rc ind s = .ok l r) :
    ∃ c, s = c ++ r ∧ Src False ind (.entry l) c := by
  unfold letEntry at h
  rcases alt_eq_ok.1 h with h | ⟨h', h⟩
  · exact letBinding_sound hs h
  · obtain ⟨f, h0, rfl⟩ := pmap_eq_ok.1 h
    obtain ⟨c, rfl, hc⟩ := functionF_sound hs h0
    obtain ⟨sg, n, as, e⟩ := f
    refine ⟨c, rfl, .function ?_ hc⟩
    rw [← Classical.not_and_iff_not_or_not]
    rintro ⟨rfl, rfl⟩
    rw [letBinding_of_functionF hs h0] at h'
    cases h'

theorem entries_sound {ls : List LetEntry} (h : Steps (preceded (gap ind .EQ) (letEntry rc ind)) s ls r) :
    ∃ c, s = c ++ r ∧ Src False ind (.entries ls) c := by
  induction h with
  | nil s => exact ⟨[], rfl, .entries0⟩
  | cons h1 _ ih =>
    obtain ⟨c, rfl, hc⟩ := ih
    obtain ⟨w, r1, h1, h2⟩ := preceded_eq_ok.1 h1
    obtain ⟨d, rfl, hd⟩ := letEntry_sound hs h2
    obtain ⟨-, g, rfl, hg⟩ := gapTxt_of_ok h1 (src_ne_nil hd trivial _)
    exact ⟨g ++ d ++ c, by simp, .entries hg False.elim hd.any hc⟩

theorem letExpression_inv (h : letExpression rc ind s = .ok e r) :
    ∃ i i2 i3 g1 l c ls cs g2 g3 b d, e = .Let (l :: ls) b ∧
      s = c!"let" ++ g1 ++ c ++ cs ++ g2 ++ c!"in" ++ g3 ++ d ++ r ∧ GapTxt ind .GTE i g1 ∧
      Src False i (.entry l) c ∧ Src False i (.entries ls) cs ∧ GapTxt ind .GTE i2 g2 ∧
      GapTxt ind .GTE i3 g3 ∧ Src False ind (.expr b) d := by
  unfold letExpression letBindings at h
  simp only [bind_eq_ok, pure_eq_ok] at h
  obtain ⟨_, s1, k1, i, s2, k2, ls, s3, k3, i2, s4, k4, _, s5, k5, i3, s6, k6, b, s7, k7, rfl, rfl⟩ := h
  obtain ⟨-, rfl⟩ := tag_eq_ok.1 k1
  obtain ⟨l, ls, s8, rfl, k8, k9⟩ := sepNonemptyList_steps k3
  obtain ⟨c, rfl, hc⟩ := letEntry_sound hs k8
  obtain ⟨cs, rfl, hcs⟩ := entries_sound hs k9
  obtain ⟨d, rfl, hd⟩ := hs k7
  obtain ⟨-, g3, rfl, hg3⟩ := gapTxt_of_ok k6 (src_ne_nil hd trivial _)
  obtain ⟨-, g2, rfl, hg2⟩ := gapTxt_of_ok k4 (tag_ne_nil k5)
  obtain ⟨-, rfl⟩ := tag_eq_ok.1 k5
  obtain ⟨-, g1, rfl, hg1⟩ := gapTxt_of_ok k2 (src_ne_nil hc trivial _)
  exact ⟨i, i2, i3, g1, l, c, ls, cs, g2, g3, b, d, rfl, by simp, hg1, hc, hcs, hg2, hg3, hd⟩

theorem letExpression_sound (h : letExpression rc ind s = .ok e r) :
    ∃ c, s = c ++ r ∧ Src False ind (.expr e) c := by
  obtain ⟨i, i2, i3, g1, l, c, ls, cs, g2, g3, b, d, rfl, rfl, hg1, hc, hcs, hg2, hg3, hd⟩ := letExpression_inv hs h
  exact ⟨_, rfl, .let_ hg1 hc.any hcs.any hg2 hg3 hd⟩

theorem caseBranch_sound {b : Expr × Expr} (h : caseBranch rc ind s = .ok b r) :
    ∃ c, s = c ++ r ∧ Src False ind (.branch b) c := by
  unfold caseBranch at h
  simp only [bind_eq_ok, pure_eq_ok] at h
  obtain ⟨p, s1, k1, i1, s2, k2, _, s3, k3, i, s4, k4, e, s5, k5, rfl, rfl⟩ := h
  obtain ⟨c, rfl, hc⟩ := hs k1
  obtain ⟨d, rfl, hd⟩ := hs k5
  obtain ⟨-, g2, rfl, hg2⟩ := gapTxt_of_ok k4 (src_ne_nil hd trivial _)
  obtain ⟨-, g1, rfl, hg1⟩ := gapTxt_of_ok k2 (tag_ne_nil k3)
  obtain ⟨-, rfl⟩ := tag_eq_ok.1 k3
  exact ⟨c ++ g1 ++ c!"->" ++ g2 ++ d, by simp, .branch hc.any hg1 hg2 False.elim hd.any⟩

theorem branches_sound {bs : List (Expr × Expr)}
    (h : Steps (preceded (gap ind .EQ) (caseBranch rc ind)) s bs r) :
    ∃ c, s = c ++ r ∧ Src False ind (.branches bs) c := by
  induction h with
  | nil s => exact ⟨[], rfl, .branches0⟩
  | cons h1 _ ih =>
    obtain ⟨c, rfl, hc⟩ := ih
    obtain ⟨w, r1, h1, h2⟩ := preceded_eq_ok.1 h1
    obtain ⟨d, rfl, hd⟩ := caseBranch_sound hs h2
    obtain ⟨-, g, rfl, hg⟩ := gapTxt_of_ok h1 (src_ne_nil hd trivial _)
    exact ⟨g ++ d ++ c, by simp, .branches hg False.elim hd.any hc⟩

theorem caseExpression_inv (h : caseExpression rc ind s = .ok e r) :
    ∃ i1 i2 i g1 a c g2 g3 b d bs ds, e = .Case a (b :: bs) ∧
      s = c!"case" ++ g1 ++ c ++ g2 ++ c!"of" ++ g3 ++ d ++ ds ++ r ∧ GapTxt ind .GTE i1 g1 ∧
      Src False ind (.expr a) c ∧ GapTxt ind .GTE i2 g2 ∧ GapTxt ind .GTE i g3 ∧
      Src False i (.branch b) d ∧ Src False i (.branches bs) ds := by
  unfold caseExpression casesP at h
  simp only [bind_eq_ok, pure_eq_ok] at h
  obtain ⟨_, s1, k1, i1, s2, k2, e, s3, k3, i2, s4, k4, _, s5, k5, i, s6, k6, bs, s7, k7, rfl, rfl⟩ := h
  obtain ⟨-, rfl⟩ := tag_eq_ok.1 k1
  obtain ⟨b, bs, s8, rfl, k8, k9⟩ := sepNonemptyList_steps k7
  obtain ⟨c, rfl, hc⟩ := hs k3
  obtain ⟨d, rfl, hd⟩ := caseBranch_sound hs k8
  obtain ⟨ds, rfl, hds⟩ := branches_sound hs k9
  obtain ⟨-, g3, rfl, hg3⟩ := gapTxt_of_ok k6 (src_ne_nil hd trivial _)
  obtain ⟨-, g2, rfl, hg2⟩ := gapTxt_of_ok k4 (tag_ne_nil k5)
  obtain ⟨-, rfl⟩ := tag_eq_ok.1 k5
  obtain ⟨-, g1, rfl, hg1⟩ := gapTxt_of_ok k2 (src_ne_nil hc trivial _)
  exact ⟨i1, i2, i, g1, e, c, g2, g3, b, d, bs, ds, rfl, by simp, hg1, hc, hg2, hg3, hd, hds⟩

theorem caseExpression_sound (h : caseExpression rc ind s = .ok e r) :
    ∃ c, s = c ++ r ∧ Src False ind (.expr e) c := by
  obtain ⟨i1, i2, i, g1, a, c, g2, g3, b, d, bs, ds, rfl, rfl, hg1, hc, hg2, hg3, hd, hds⟩ := caseExpression_inv hs h
  exact ⟨_, rfl, .case_ hg1 hc.any hg2 hg3 False.elim hd.any hds.any⟩

theorem ifExpression_sound (h : ifExpression rc ind s = .ok e r) :
    ∃ c, s = c ++ r ∧ Src False ind (.expr e) c := by
  unfold ifExpression at h
  simp only [bind_eq_ok, pure_eq_ok] at h
  obtain ⟨_, s1, k1, i1, s2, k2, e1, s3, k3, i2, s4, k4, _, s5, k5, i3, s6, k6, e2, s7, k7, i4, s8, k8,
    _, s9, k9, i5, s10, k10, e3, s11, k11, rfl, rfl⟩ := h
  obtain ⟨-, rfl⟩ := tag_eq_ok.1 k1
  obtain ⟨c1, rfl, hc1⟩ := hs k3
  obtain ⟨c2, rfl, hc2⟩ := hs k7
  obtain ⟨c3, rfl, hc3⟩ := hs k11
  obtain ⟨-, g5, rfl, hg5⟩ := gapTxt_of_ok k10 (src_ne_nil hc3 trivial _)
  obtain ⟨-, g4, rfl, hg4⟩ := gapTxt_of_ok k8 (tag_ne_nil k9)
  obtain ⟨-, rfl⟩ := tag_eq_ok.1 k9
  obtain ⟨-, g3, rfl, hg3⟩ := gapTxt_of_ok k6 (src_ne_nil hc2 trivial _)
  obtain ⟨-, g2, rfl, hg2⟩ := gapTxt_of_ok k4 (tag_ne_nil k5)
  obtain ⟨-, rfl⟩ := tag_eq_ok.1 k5
  obtain ⟨-, g1, rfl, hg1⟩ := gapTxt_of_ok k2 (src_ne_nil hc1 trivial _)
  exact ⟨c!"if" ++ g1 ++ c1 ++ g2 ++ c!"then" ++ g3 ++ c2 ++ g4 ++ c!"else" ++ g5 ++ c3, by simp,
    .if_ hg1 hc1.any hg2 hg3 hc2.any hg4 hg5 hc3.any⟩

theorem expressionF_sound (h : expressionF rc ind s = .ok e r) :
    ∃ c, s = c ++ r ∧ Src False ind (.expr e) c := by
  unfold expressionF at h
  rcases alt_eq_ok.1 h with h | ⟨-, h⟩
  · exact binary_sound hs h
  rcases alt_eq_ok.1 h with h | ⟨-, h⟩
  · exact letExpression_sound hs h
  rcases alt_eq_ok.1 h with h | ⟨-, h⟩
  · exact caseExpression_sound hs h
  rcases alt_eq_ok.1 h with h | ⟨-, h⟩
  · exact ifExpression_sound hs h
  · exact lambda_sound hs h

end

theorem eSound_exprN (n : Nat) : ESound (exprN n) := by
  induction n with
  | zero => intro _ _ _ _ h; cases h
  | succ n ih => intro _ _ _ _ h; exact expressionF_sound ih h

theorem eSound_expression : ESound expression := by
  intro ind s e r h
  exact eSound_exprN _ h

end ElmParser
