import Verif.Props.Bound
import Verif.Proofs.ExprSound

/-! Texts without parentheses, `let` and `case`: no place is read twice. -/
namespace ElmParser

/-- Nothing in the text makes the parser of expressions read a place a second time. -/
structure Spec.Straight (s : Str) : Prop where
  paren : '(' ∉ s
  let_ : ¬ c!"let" <:+: s
  case : ¬ c!"case" <:+: s

namespace Trace
open Spec

@[inherit_doc] local infixr:20 " </> " => alt

variable {α β γ δ : Type}

theorem _root_.ElmParser.Spec.Straight.suffix {s t : Str} (h : Straight s) (ht : t <:+ s) : Straight t where
  paren hc := h.paren (ht.subset hc)
  let_ hs := h.let_ (hs.trans ht.isInfix)
  case hs := h.case (hs.trans ht.isInfix)

/-! ### Texts at which a parser has given up -/

/-- A list or a record. -/
def Opens (t : Str) : Prop := ∃ u, t = '[' :: u ∨ t = '{' :: u

/-- What a gap after an expression may lead to, if the parser has tried to go on and failed. -/
def Blocked (t : Str) : Prop := Opens t ∨ (∃ c u, t = c :: u ∧ OpChar c) ∨ ∃ u, t = 'a' :: 's' :: u

/-- A gap and a list or record that cannot be read. -/
def DeadArg (r : Str) : Prop := ∃ ls last t, Gap r ls last t ∧ Opens t

/-- A gap and something that has been tried without success. -/
def Dead (r : Str) : Prop := ∃ ls last t, Gap r ls last t ∧ Blocked t

theorem DeadArg.dead {r : Str} (h : DeadArg r) : Dead r := by
  obtain ⟨ls, last, t, hg, h⟩ := h
  exact ⟨ls, last, t, hg, .inl h⟩

theorem dead_gap {ind i : Nat} {ir : IR} {r t : Str} (h : Dead r) (hg : gap ind ir r = .ok i t) : Blocked t := by
  obtain ⟨ls, last, t', hg', h⟩ := h
  obtain ⟨rfl, -⟩ := (gap_of_gap hg' ind ir).1 hg
  exact h

theorem deadArg_gap {ind i : Nat} {ir : IR} {r t : Str} (h : DeadArg r) (hg : gap ind ir r = .ok i t) : Opens t := by
  obtain ⟨ls, last, t', hg', h⟩ := h
  obtain ⟨rfl, -⟩ := (gap_of_gap hg' ind ir).1 hg
  exact h

theorem dead_of_gap {ind i : Nat} {ir : IR} {r t : Str} (hg : gap ind ir r = .ok i t) (h : Blocked t) : Dead r := by
  obtain ⟨ls, last, hg', -⟩ := gap_iff.1 hg
  exact ⟨ls, last, t, hg', h⟩

theorem deadArg_of_gap {ind i : Nat} {ir : IR} {r t : Str} (hg : gap ind ir r = .ok i t) (h : Opens t) : DeadArg r := by
  obtain ⟨ls, last, hg', -⟩ := gap_iff.1 hg
  exact ⟨ls, last, t, hg', h⟩

/-- The first character of a gap. -/
theorem gap_first {ls : List Spec.Line} {last : Spec.Line} {r t : Str} (h : Gap r ls last t) :
    ∃ c u, r = c :: u ∧ (c = ' ' ∨ c = '\n' ∨ c = '-') := by
  obtain ⟨rfl, hne, -⟩ := h
  have line : ∀ (l : Spec.Line) (x : Str), l.text ≠ [] → ∃ c u, l.text ++ x = c :: u ∧ (c = ' ' ∨ c = '\n' ∨ c = '-') := by
    rintro ⟨n, o⟩ x hl
    cases n with
    | succ n => exact ⟨' ', _, rfl, .inl rfl⟩
    | zero =>
      cases o with
      | none => exact absurd rfl hl
      | some t => exact ⟨'-', _, rfl, .inr (.inr rfl)⟩
  cases ls with
  | nil => exact line last t hne
  | cons l ls =>
    simp only [gapText, List.append_assoc, List.cons_append]
    by_cases hl : l.text = []
    · rw [hl]; exact ⟨'\n', _, rfl, .inr (.inl rfl)⟩
    · exact line l _ hl

theorem not_opChar_closer {c : Char} (h : c = ',' ∨ c = ']' ∨ c = '}') : ¬ OpChar c := by
  rcases h with rfl | rfl | rfl <;> decide

/-- After what has been tried without success there is no closing bracket or comma. -/
theorem blocked_char {t : Str} (h : Blocked t) {c : Char} (hc : c = ',' ∨ c = ']' ∨ c = '}') : char c t = .err := by
  rcases h with ⟨u, rfl | rfl⟩ | ⟨d, u, rfl, hd⟩ | ⟨u, rfl⟩
  · rcases hc with rfl | rfl | rfl <;> rfl
  · rcases hc with rfl | rfl | rfl <;> rfl
  · refine char_cons_ne _ ?_
    rintro rfl
    exact not_opChar_closer hc hd
  · rcases hc with rfl | rfl | rfl <;> rfl

theorem dead_char {r : Str} (h : Dead r) {c : Char} (hc : c = ',' ∨ c = ']' ∨ c = '}') : char c r = .err := by
  obtain ⟨ls, last, t, hg, -⟩ := h
  obtain ⟨d, u, rfl, hd⟩ := gap_first hg
  refine char_cons_ne _ ?_
  rintro rfl
  rcases hc with rfl | rfl | rfl <;> simp at hd

theorem dead_opt {ind : Nat} {ir : IR} {r t : Str} {o : Option Nat} (h : Dead r) (hg : ElmParser.opt (gap ind ir) r = .ok o t)
    {c : Char} (hc : c = ',' ∨ c = ']' ∨ c = '}') : char c t = .err := by
  rcases opt_eq_ok.1 hg with ⟨v, hg', rfl⟩ | ⟨-, rfl, rfl⟩
  · exact blocked_char (dead_gap h hg') hc
  · exact dead_char h hc

theorem dead_optGap {ind i : Nat} {ir : IR} {r t : Str} (h : Dead r) (hg : optGap ind ir r = .ok i t)
    {c : Char} (hc : c = ',' ∨ c = ']' ∨ c = '}') : char c t = .err := by
  unfold optGap at hg
  obtain ⟨o, hg, -⟩ := pmap_eq_ok.1 hg
  exact dead_opt h hg hc

/-- After what has been tried without success there is no `then` or `else`. -/
theorem blocked_tag {t : Str} (h : Blocked t) {c : Char} {k : Str} (hc : c = 't' ∨ c = 'e') : tag (c :: k) t = .err := by
  have : ∀ d u, t = d :: u → d ≠ c → tag (c :: k) t = .err := by
    rintro d u rfl hd
    exact tag_cons_ne hd
  rcases h with ⟨u, rfl | rfl⟩ | ⟨d, u, rfl, hd⟩ | ⟨u, rfl⟩
  · exact this _ _ rfl (by rcases hc with rfl | rfl <;> decide)
  · exact this _ _ rfl (by rcases hc with rfl | rfl <;> decide)
  · refine this _ _ rfl ?_
    rintro rfl
    rcases hc with rfl | rfl <;> revert hd <;> decide
  · exact this _ _ rfl (by rcases hc with rfl | rfl <;> decide)

/-! ### Counting -/

/-- Every call is charged to a place of the text read: `a` places at the start are not charged. -/
def Clean (a : Nat) (s : Str) (x : Res α × List Event) : Prop :=
  calls x + a ≤ s.length + 1 ∧ ∀ v r, x.1 = .ok v r → calls x + a + r.length ≤ s.length

/-- The same, but the parser may have read more than it consumed, and then nothing can follow. -/
def Once (a : Nat) (s : Str) (x : Res α × List Event) : Prop :=
  calls x + a ≤ s.length + 1 ∧ ∀ v r, x.1 = .ok v r → calls x + a + r.length ≤ s.length ∨ Dead r

theorem Clean.once {a : Nat} {s : Str} {x : Res α × List Event} (h : Clean a s x) : Once a s x :=
  ⟨h.1, fun v r e => .inl (h.2 v r e)⟩

theorem calls_free (p : Parser α) (s : Str) : calls (free p s) = 0 := rfl

theorem calls_andThen_ok {x : Res α × List Event} {f : α → TP β} {v : α} {r : Str} (h : x.1 = .ok v r) :
    calls (andThen x f) = calls x + calls (f v r) := by
  obtain ⟨y, l⟩ := x
  cases h
  exact List.countP_append

theorem calls_andThen_ne {x : Res α × List Event} {f : α → TP β} (h : ∀ v r, x.1 ≠ .ok v r) :
    calls (andThen x f) = calls x ∧ ∀ w q, (andThen x f).1 ≠ .ok w q := by
  obtain ⟨y, l⟩ := x
  cases y with
  | ok v r => exact absurd rfl (h v r)
  | err => exact ⟨rfl, by intro _ _ e; cases e⟩
  | panic => exact ⟨rfl, by intro _ _ e; cases e⟩
  | div => exact ⟨rfl, by intro _ _ e; cases e⟩

theorem ok_or (x : Res α × List Event) : (∃ v r, x.1 = .ok v r) ∨ ∀ v r, x.1 ≠ .ok v r := by
  obtain ⟨y, l⟩ := x
  cases y with
  | ok v r => exact .inl ⟨v, r, rfl⟩
  | err => exact .inr (by intro _ _ e; cases e)
  | panic => exact .inr (by intro _ _ e; cases e)
  | div => exact .inr (by intro _ _ e; cases e)

theorem andThen_fst {x : Res α × List Event} {f : α → TP β} {v : α} {r : Str} (h : x.1 = .ok v r) :
    (andThen x f).1 = (f v r).1 := by
  obtain ⟨y, l⟩ := x
  cases h
  rfl

/-- Something after a parser that may have given up. -/
theorem once_bind {a : Nat} {p : TP α} {f : α → TP β} {s : Str} (h : Once a s (p s))
    (h1 : ∀ v r, (p s).1 = .ok v r → Once 0 r (f v r))
    (h2 : ∀ v r, (p s).1 = .ok v r → Dead r → calls (f v r) = 0 ∧ ∀ w q, (f v r).1 = .ok w q → Dead q) :
    Once a s ((p >>= f) s) := by
  show Once a s (andThen (p s) f)
  rcases ok_or (p s) with ⟨v, r, e⟩ | e
  · have ec := calls_andThen_ok (f := f) e
    have ef := andThen_fst (f := f) e
    rcases h.2 v r e with hc | hd
    · obtain ⟨k1, k2⟩ := h1 v r e
      refine ⟨by omega, fun w q eq => ?_⟩
      rw [ef] at eq
      rcases k2 w q eq with k | k
      · exact .inl (by omega)
      · exact .inr k
    · obtain ⟨k1, k2⟩ := h2 v r e hd
      have := h.1
      refine ⟨by omega, fun w q eq => ?_⟩
      rw [ef] at eq
      exact .inr (k2 w q eq)
  · obtain ⟨ec, ef⟩ := calls_andThen_ne (f := f) e
    exact ⟨by rw [ec]; exact h.1, fun w q eq => absurd eq (ef w q)⟩

/-- Something after a parser without calls. -/
theorem once_free {a b : Nat} {p : Parser α} {f : α → TP β} {s : Str} (ha : a ≤ s.length + 1)
    (h : ∀ v r, p s = .ok v r → r.length + a ≤ s.length + b ∧ Once b r (f v r)) : Once a s ((free p >>= f) s) := by
  show Once a s (andThen (p s, []) f)
  rcases ok_or (p s, ([] : List Event)) with ⟨v, r, e⟩ | e
  · have ec := calls_andThen_ok (f := f) e
    have ef := andThen_fst (f := f) e
    have e0 : calls (p s, ([] : List Event)) = 0 := rfl
    obtain ⟨k, k1, k2⟩ := h v r e
    refine ⟨by omega, fun w q eq => ?_⟩
    rw [ef] at eq
    rcases k2 w q eq with k | k
    · exact .inl (by omega)
    · exact .inr k
  · obtain ⟨ec, ef⟩ := calls_andThen_ne (f := f) e
    have e0 : calls (p s, ([] : List Event)) = 0 := rfl
    exact ⟨by omega, fun w q eq => absurd eq (ef w q)⟩

theorem once_pure (s : Str) (v : α) : Once 0 s ((pure v : TP α) s) :=
  ⟨Nat.zero_le _, fun w r e => by cases e; exact .inl (by show 0 + 0 + s.length ≤ _; omega)⟩

theorem quiet_pure (r : Str) (v : α) (h : Dead r) :
    calls ((pure v : TP α) r) = 0 ∧ ∀ w q, ((pure v : TP α) r).1 = .ok w q → Dead q :=
  ⟨rfl, fun w q e => by cases e; exact h⟩

/-- A parser without calls that fails, whatever follows. -/
theorem stopped {p : Parser α} {f : α → TP β} {r : Str} (h : ∀ v t, p r ≠ .ok v t) :
    calls ((free p >>= f) r) = 0 ∧ ∀ w q, ((free p >>= f) r).1 ≠ .ok w q := by
  obtain ⟨ec, ef⟩ := calls_andThen_ne (x := (p r, [])) (f := f) h
  exact ⟨ec, ef⟩

/-- Steps without calls after which something fails. -/
theorem stops {p : Parser α} {f : α → TP β} {r : Str}
    (h : ∀ v t, p r = .ok v t → calls (f v t) = 0 ∧ ∀ w q, (f v t).1 ≠ .ok w q) :
    calls ((free p >>= f) r) = 0 ∧ ∀ w q, ((free p >>= f) r).1 ≠ .ok w q := by
  rcases ok_or (p r, ([] : List Event)) with ⟨v, t, e⟩ | e
  · have ec := calls_andThen_ok (f := f) e
    have ef := andThen_fst (f := f) e
    obtain ⟨k1, k2⟩ := h v t e
    refine ⟨?_, fun w q eq => k2 w q ?_⟩
    · show calls (andThen (p r, []) f) = 0
      rw [ec, k1]; rfl
    · rw [← ef]; exact eq
  · exact stopped e

/-! ### Loops -/

/-- What is needed of the separators and items of a list: `D` says that the list is abandoned. -/
structure Items (sep : Parser β) (p : TP α) (D : Str → Prop) (s : Str) : Prop where
  sepCons : ∀ k, Cons k sep
  suffix : ∀ t v r, (p t).1 = .ok v r → r <:+ t ∧ r.length < t.length
  once : ∀ t, t <:+ s → calls (p t) ≤ t.length + 1 ∧
    ∀ v r, (p t).1 = .ok v r → calls (p t) + r.length ≤ t.length ∨ (sep r = .err ∧ D r)
  err : ∀ t u x, t <:+ s → sep t = .ok x u → (p u).1 = .err → calls (p u) = 0 ∨ D t

/-- The calls of a list are charged to the places it reads. -/
def Counted (n : Nat) (D : Str → Prop) (x : Res α × List Event) : Prop :=
  calls x ≤ n ∧ ∀ v r, x.1 = .ok v r → calls x + r.length ≤ n ∨ D r

theorem calls_append (x : Res α) (k l : List Event) : calls (x, k ++ l) = calls (x, k) + calls (x, l) := List.countP_append
theorem calls_same (x : Res α) (y : Res β) (k : List Event) : calls (x, k) = calls (y, k) := rfl
theorem calls_nil (x : Res α) : calls (x, []) = 0 := rfl

theorem counted_pure {n : Nat} {D : Str → Prop} {p : TP α} (f : α → β) {s : Str} (h : Counted n D (p s)) :
    Counted n D ((p >>= fun v => pure (f v)) s) := by
  show Counted n D (andThen (p s) _)
  rcases ok_or (p s) with ⟨v, r, e⟩ | e
  · have ec : calls (andThen (p s) fun v => pure (f v)) = calls (p s) := calls_andThen_ok (f := fun v => pure (f v)) e
    have ef := andThen_fst (f := fun v => (pure (f v) : TP β)) e
    refine ⟨by rw [ec]; exact h.1, fun w q eq => ?_⟩
    rw [ef] at eq
    cases eq
    rw [ec]
    exact h.2 v r e
  · obtain ⟨ec, ef⟩ := calls_andThen_ne (f := fun v => (pure (f v) : TP β)) e
    exact ⟨by rw [ec]; exact h.1, fun w q eq => absurd eq (ef w q)⟩

/-- Nothing more after an abandoned item. -/
theorem sepLoop_stop {sep : Parser β} {p : TP α} {r : Str} (h : sep r = .err) (n : Nat) (v : α) :
    calls ((do let vs ← sepLoop (free sep) p n; pure (v :: vs) : TP (List α)) r) = 0 ∧
      ∀ w q, ((do let vs ← sepLoop (free sep) p n; pure (v :: vs) : TP (List α)) r).1 = .ok w q → q = r := by
  show calls (andThen (sepLoop (free sep) p n r) _) = 0 ∧ ∀ w q, (andThen (sepLoop (free sep) p n r) _).1 = .ok w q → _
  cases n with
  | zero => exact ⟨rfl, fun w q e => by cases e⟩
  | succ n =>
    simp only [sepLoop, free, h]
    exact ⟨rfl, fun w q e => by cases e; rfl⟩

/-- An item and what follows it. -/
theorem counted_item {sep : Parser β} {p : TP α} {D : Str → Prop} {s t : Str} (h : Items sep p D s) {n : Nat}
    (ih : ∀ t, t <:+ s → Counted t.length D (sepLoop (free sep) p n t)) (ht : t <:+ s) {v : α} {r : Str} {l : List Event}
    (e : p t = (.ok v r, l)) : Counted (t.length + 1) D
      (andThen (.ok v r, l) fun v => do let vs ← sepLoop (free sep) p n; pure (v :: vs)) := by
  have h1 := h.once t ht
  have h3 := h.suffix t
  rw [e] at h1 h3
  obtain ⟨hr, hrl⟩ := h3 v r rfl
  have k := counted_pure (fun vs => v :: vs) (ih r (hr.trans ht))
  have ec : ∀ f : α → TP (List α), calls (andThen (.ok v r, l) f) = calls ((.ok v r : Res α), l) + calls (f v r) :=
    fun f => calls_andThen_ok (x := (.ok v r, l)) rfl
  rcases h1.2 v r rfl with h1 | ⟨h1', h1''⟩
  · refine ⟨by rw [ec]; have := k.1; omega, fun w q e => ?_⟩
    rcases k.2 w q e with k | k
    · exact .inl (by rw [ec]; omega)
    · exact .inr k
  · have k1 := sepLoop_stop (p := p) h1' n v
    refine ⟨by rw [ec, k1.1]; have := h1.1; omega, fun w q e => ?_⟩
    have := k1.2 w q e
    subst this
    exact .inr h1''

theorem counted_sepLoop {sep : Parser β} {p : TP α} {D : Str → Prop} {s : Str} (h : Items sep p D s) (n : Nat) :
    ∀ t, t <:+ s → Counted t.length D (sepLoop (free sep) p n t) := by
  induction n with
  | zero => exact fun t _ => ⟨Nat.zero_le _, fun _ _ e => by cases e⟩
  | succ n ih =>
    intro t ht
    simp only [sepLoop, free]
    cases hp : sep t with
    | err => exact ⟨Nat.zero_le _, fun v r e => by cases e; exact .inl (by show 0 + t.length ≤ _; omega)⟩
    | panic => exact ⟨Nat.zero_le _, fun _ _ e => by cases e⟩
    | div => exact ⟨Nat.zero_le _, fun _ _ e => by cases e⟩
    | ok x u =>
      have hu := suffix_of_ok (fun k => (h.sepCons k).good) hp
      have hl := lt_of_ok h.sepCons hp
      simp only
      rw [if_neg (by omega)]
      have h1 := h.once u (hu.trans ht)
      have h2 := h.err t u x ht hp
      have h3 := h.suffix u
      have h4 := @counted_item _ _ sep p D s u h n ih (hu.trans ht)
      cases hq : p u with
      | mk y l =>
        rw [hq] at h1 h2 h3
        have en : ∀ (z : Res (List α)), calls (z, [] ++ l) = calls (y, l) := fun z => rfl
        cases y with
        | err =>
          simp only
          refine ⟨by rw [en]; have := h1.1; omega, fun v r e => ?_⟩
          cases e
          rcases h2 rfl with h2 | h2
          · exact .inl (by rw [en]; omega)
          · exact .inr h2
        | panic => exact ⟨by rw [en]; have := h1.1; omega, fun v r e => by cases e⟩
        | div => exact ⟨by rw [en]; have := h1.1; omega, fun v r e => by cases e⟩
        | ok v r =>
          simp only
          obtain ⟨hr, hrl⟩ := h3 v r rfl
          rw [if_neg (by omega)]
          have k := h4 hq
          refine ⟨Nat.le_trans k.1 (by omega), fun w q e => ?_⟩
          rcases k.2 w q e with k | k
          · exact .inl (Nat.le_trans k (by omega))
          · exact .inr k

/-- A list, without what follows it. -/
theorem counted_sepList {sep : Parser β} {p : TP α} {D : Str → Prop} {s : Str} (h : Items sep p D s)
    (hf : (p s).1 = .err → calls (p s) ≤ 1 ∨ D s) : Counted (s.length + 1) D (sepList (free sep) p s) := by
  unfold sepList
  have h1 := h.once s (List.suffix_refl s)
  have h3 := h.suffix s
  have h4 := fun n => @counted_item _ _ sep p D s s h n (counted_sepLoop h n) (List.suffix_refl s)
  cases hq : p s with
  | mk y l =>
    rw [hq] at h1 h3 hf
    have en : ∀ (z : Res (List α)), calls (z, l) = calls (y, l) := fun z => rfl
    cases y with
    | err =>
      simp only
      refine ⟨by rw [en]; exact h1.1, fun v r e => ?_⟩
      cases e
      rcases hf rfl with hf | hf
      · exact .inl (by rw [en]; omega)
      · exact .inr hf
    | panic => exact ⟨by rw [en]; exact h1.1, fun v r e => by cases e⟩
    | div => exact ⟨by rw [en]; exact h1.1, fun v r e => by cases e⟩
    | ok v r =>
      simp only
      obtain ⟨hr, hrl⟩ := h3 v r rfl
      rw [if_neg (by omega)]
      exact h4 _ hq

/-! ### Parsers without calls -/

theorem free_opt (p : Parser α) : opt (free p) = free (ElmParser.opt p) := by
  funext s
  show opt (free p) s = (ElmParser.opt p s, [])
  rw [opt_apply]
  unfold opt alt
  have e : pmap (free p) some s = andThen (p s, []) (fun v => pure (some v)) := rfl
  rw [e]
  cases p s <;> rfl

theorem free_preceded (p : Parser α) (q : Parser β) : preceded (free p) (free q) = free (ElmParser.preceded p q) := free_bind p fun _ => q
theorem free_terminated (p : Parser α) (q : Parser β) : terminated (free p) (free q) = free (ElmParser.terminated p q) := by
  unfold terminated ElmParser.terminated
  rw [← free_bind]
  congr 1; funext _
  rw [← free_bind]
  rfl
theorem free_delimited (p : Parser α) (q : Parser β) (t : Parser γ) :
    delimited (free p) (free q) (free t) = free (ElmParser.delimited p q t) := by
  unfold delimited ElmParser.delimited
  rw [← free_bind]
  congr 1; funext _
  rw [← free_bind]
  congr 1; funext _
  rw [← free_bind]
  rfl

/-! ### Brackets -/

theorem clean_pmap {a : Nat} {p : TP α} (f : α → β) {s : Str} (h : Clean a s (p s)) : Clean a s (pmap p f s) := by
  show Clean a s (andThen (p s) fun v => pure (f v))
  rcases ok_or (p s) with ⟨v, r, e⟩ | e
  · have ec : calls (andThen (p s) fun v => pure (f v)) = calls (p s) := calls_andThen_ok (f := fun v => pure (f v)) e
    have ef := andThen_fst (f := fun v => (pure (f v) : TP β)) e
    refine ⟨by rw [ec]; exact h.1, fun w q eq => ?_⟩
    rw [ef] at eq
    cases eq
    rw [ec]
    exact h.2 v r e
  · obtain ⟨ec, ef⟩ := calls_andThen_ne (f := fun v => (pure (f v) : TP β)) e
    exact ⟨by rw [ec]; exact h.1, fun w q eq => absurd eq (ef w q)⟩

theorem clean_alt {a : Nat} {p q : TP α} {s : Str} (hp : Clean a s (p s)) (hq : Clean a s (q s))
    (h : (p s).1 = .err → 0 < calls (p s) → calls (q s) = 0 ∧ ∀ v r, (q s).1 ≠ .ok v r) : Clean a s ((p </> q) s) := by
  unfold alt
  cases e : p s with
  | mk x n =>
    rw [e] at hp h
    cases x with
    | ok v r => exact hp
    | panic => exact hp
    | div => exact hp
    | err =>
      have ec : calls ((q s).1, n ++ (q s).2) = calls ((.err : Res α), n) + calls (q s) := List.countP_append
      simp only
      by_cases h0 : calls ((.err : Res α), n) = 0
      · refine ⟨by rw [ec, h0, Nat.zero_add]; exact hq.1, fun v r eq => ?_⟩
        rw [ec, h0, Nat.zero_add]
        exact hq.2 v r eq
      · obtain ⟨k1, k2⟩ := h rfl (Nat.pos_of_ne_zero h0)
        exact ⟨by rw [ec, k1]; exact hp.1, fun v r eq => absurd eq (k2 v r)⟩

theorem clean_free {p : Parser α} (hp : ∀ k, Cons k p) (s : Str) : Clean 1 s (free p s) :=
  ⟨by show 0 + 1 ≤ _; omega, fun v r e => by have := lt_of_ok hp e; show 0 + 1 + _ ≤ _; omega⟩

/-- What stands between brackets. -/
theorem clean_delimited {O : Parser α} {Q : TP β} {C : Parser γ} {D : Str → Prop} {s : Str} (hO : ∀ k, Cons k O)
    (hC : ∀ k, Cons k C) (hD : ∀ r, D r → C r = .err) (h : ∀ v t, O s = .ok v t → Counted (t.length + 1) D (Q t)) :
    Clean 1 s (delimited (free O) Q (free C) s) := by
  have close : ∀ (v : β) (r : Str), calls ((do let _ ← free C; pure v : TP β) r) = 0 ∧
      ∀ w q, ((do let _ ← free C; pure v : TP β) r).1 = .ok w q → q.length < r.length ∧ ¬ D r := by
    intro v r
    show calls (andThen (C r, []) _) = 0 ∧ ∀ w q, (andThen (C r, []) _).1 = .ok w q → _
    cases e : C r with
    | ok x t =>
      have := lt_of_ok hC e
      refine ⟨rfl, fun w q eq => ?_⟩
      cases eq
      refine ⟨this, fun hd => ?_⟩
      rw [hD r hd] at e
      cases e
    | err => exact ⟨rfl, fun w q eq => by cases eq⟩
    | panic => exact ⟨rfl, fun w q eq => by cases eq⟩
    | div => exact ⟨rfl, fun w q eq => by cases eq⟩
  show Clean 1 s (andThen (O s, []) fun _ => do let v ← Q; let _ ← free C; pure v)
  cases eO : O s with
  | err => exact ⟨by show 0 + 1 ≤ _; omega, fun v r e => by cases e⟩
  | panic => exact ⟨by show 0 + 1 ≤ _; omega, fun v r e => by cases e⟩
  | div => exact ⟨by show 0 + 1 ≤ _; omega, fun v r e => by cases e⟩
  | ok x t =>
    have hl := lt_of_ok hO eO
    have hq := h x t eO
    have en : calls (andThen (.ok x t, []) fun _ => do let v ← Q; let _ ← free C; pure v) =
        calls (andThen (Q t) fun v => do let _ ← free C; pure v) :=
      (calls_andThen_ok (x := (.ok x t, [])) (f := fun _ => do let v ← Q; let _ ← free C; pure v) rfl).trans
        (Nat.zero_add _)
    have ex : (andThen (.ok x t, []) fun _ => do let v ← Q; let _ ← free C; pure v).1 =
        (andThen (Q t) fun v => do let _ ← free C; pure v).1 := rfl
    rcases ok_or (Q t) with ⟨v, r, e⟩ | e
    · have ec := calls_andThen_ok (f := fun v => (do let _ ← free C; pure v : TP β)) e
      have ef := andThen_fst (f := fun v => (do let _ ← free C; pure v : TP β)) e
      obtain ⟨k1, k2⟩ := close v r
      rw [k1] at ec
      refine ⟨by rw [en, ec]; have := hq.1; omega, fun w q eq => ?_⟩
      rw [ex, ef] at eq
      obtain ⟨k3, k4⟩ := k2 w q eq
      rcases hq.2 v r e with hq | hq
      · rw [en, ec]; omega
      · exact absurd hq k4
    · obtain ⟨ec, ef⟩ := calls_andThen_ne (f := fun v => (do let _ ← free C; pure v : TP β)) e
      refine ⟨by rw [en, ec]; have := hq.1; omega, fun w q eq => ?_⟩
      rw [ex] at eq
      exact absurd eq (ef w q)

theorem sepLoop_no_err {sep : TP β} {p : TP α} (n : Nat) (s : Str) : (sepLoop sep p n s).1 ≠ .err := by
  induction n generalizing s with
  | zero => intro e; cases e
  | succ n ih =>
    unfold sepLoop
    split
    · intro e; cases e
    · intro e; cases e
    · intro e; cases e
    · split
      · intro e; cases e
      · split
        · intro e; cases e
        · intro e; cases e
        · intro e; cases e
        · split
          · intro e; cases e
          · rename_i v s3 l _ _
            have := ih s3
            show (andThen (sepLoop sep p n s3) _).1 ≠ _
            cases e : sepLoop sep p n s3 with
            | mk x k =>
              rw [e] at this
              cases x with
              | err => exact absurd rfl this
              | ok _ _ => intro e; cases e
              | panic => intro e; cases e
              | div => intro e; cases e

/-- A list never fails. -/
theorem sepList_no_err {sep : TP β} {p : TP α} {s : Str} (h : ∀ v r, (p s).1 = .ok v r → r.length < s.length) :
    (sepList sep p s).1 ≠ .err := by
  unfold sepList
  cases e : p s with
  | mk x k =>
    rw [e] at h
    cases x with
    | err => intro e; cases e
    | panic => intro e; cases e
    | div => intro e; cases e
    | ok v r =>
      simp only
      rw [if_neg (by have := h v r rfl; omega)]
      have := sepLoop_no_err (sep := sep) (p := p) (r.length + 1) r
      show (andThen (sepLoop sep p (r.length + 1) r) _).1 ≠ _
      cases e : sepLoop sep p (r.length + 1) r with
      | mk x k =>
        rw [e] at this
        cases x with
        | err => exact absurd rfl this
        | ok _ _ => intro e; cases e
        | panic => intro e; cases e
        | div => intro e; cases e

theorem counted_opt {n : Nat} {D : Str → Prop} {p : TP α} {s : Str} (h : Counted n D (p s)) (he : (p s).1 ≠ .err) :
    Counted n D (opt p s) := by
  have : opt p s = pmap p some s := by
    unfold opt alt
    have : (pmap p some s).1 ≠ .err := by
      show (andThen (p s) _).1 ≠ _
      cases e : p s with
      | mk x k =>
        rw [e] at he
        cases x with
        | err => exact absurd rfl he
        | ok _ _ => intro e; cases e
        | panic => intro e; cases e
        | div => intro e; cases e
    split
    · rename_i n e
      rw [e] at this
      exact absurd rfl this
    · rfl
  rw [this]
  exact counted_pure some h

/-! ### Separators and closing brackets -/

/-- A gap that may be missing, in any form. -/
def GapLike (ind : Nat) (G : Parser α) : Prop :=
  ∀ r v t, G r = .ok v t → ∃ o, ElmParser.opt (gap ind .GTE) r = .ok o t

theorem gapLike_opt (ind : Nat) : GapLike ind (ElmParser.opt (gap ind .GTE)) := fun _ v _ h => ⟨v, h⟩
theorem gapLike_gap (ind : Nat) : GapLike ind (gap ind .GTE) := fun _ v _ h => ⟨some v, opt_eq_ok.2 (.inl ⟨v, h, rfl⟩)⟩
theorem gapLike_optGap (ind : Nat) : GapLike ind (optGap ind .GTE) := fun _ _ _ h => by
  unfold optGap at h
  obtain ⟨o, h, -⟩ := pmap_eq_ok.1 h
  exact ⟨o, h⟩

section
variable {ind : Nat} {G : Parser α} {G' : Parser γ} {q : Parser β} {c d : Char} {r : Str}

theorem dead_sep (hG : GapLike ind G) (hc : ∀ k, Cons k (ElmParser.delimited G (char c) q)) (h : Dead r)
    (hcc : c = ',' ∨ c = ']' ∨ c = '}') : ElmParser.delimited G (char c) q r = .err := by
  refine err_of hc fun v t e => ?_
  obtain ⟨a, r1, r2, b, h1, h2, h3⟩ := delimited_eq_ok.1 e
  obtain ⟨o, ho⟩ := hG _ _ _ h1
  rw [dead_opt h ho hcc] at h2
  cases h2

theorem dead_close (hG : GapLike ind G) (hc : ∀ k, Cons k (ElmParser.terminated G (char c))) (h : Dead r)
    (hcc : c = ',' ∨ c = ']' ∨ c = '}') : ElmParser.terminated G (char c) r = .err := by
  refine err_of hc fun v t e => ?_
  obtain ⟨r1, b, h1, h2⟩ := terminated_eq_ok.1 e
  obtain ⟨o, ho⟩ := hG _ _ _ h1
  rw [dead_opt h ho hcc] at h2
  cases h2

theorem sep_close (hG : GapLike ind G) (hG' : GapLike ind G') (hc : ∀ k, Cons k (ElmParser.terminated G' (char d)))
    (hcd : c ≠ d) {v : Char} {t : Str} (h : ElmParser.delimited G (char c) q r = .ok v t) :
    ElmParser.terminated G' (char d) r = .err := by
  refine err_of hc fun v' t' e => ?_
  obtain ⟨a, r1, r2, b, h1, h2, h3⟩ := delimited_eq_ok.1 h
  obtain ⟨r1', b', h1', h2'⟩ := terminated_eq_ok.1 e
  obtain ⟨o, ho⟩ := hG _ _ _ h1
  obtain ⟨o', ho'⟩ := hG' _ _ _ h1'
  rw [ho] at ho'
  cases ho'
  obtain ⟨-, rfl⟩ := char_eq_ok.1 h2
  rw [char_cons_ne _ hcd] at h2'
  cases h2'

theorem head_close (hG' : GapLike ind G') (hc : ∀ k, Cons k (ElmParser.terminated G' (char d))) {x : Char} {u : Str}
    (hx : x ≠ ' ' ∧ x ≠ '\n' ∧ x ≠ '-') (hd : x ≠ d) : ElmParser.terminated G' (char d) (x :: u) = .err := by
  refine err_of hc fun v' t' e => ?_
  obtain ⟨r1', b', h1', h2'⟩ := terminated_eq_ok.1 e
  obtain ⟨o', ho'⟩ := hG' _ _ _ h1'
  rcases opt_eq_ok.1 ho' with ⟨v, hg, -⟩ | ⟨-, -, rfl⟩
  · rw [gap_none (noGap_of_ne hx)] at hg; cases hg
  · rw [char_cons_ne _ hd] at h2'; cases h2'

end

theorem cons_close {G : Parser α} (hG : ∀ k, Good k G) (c : Char) (k : Nat) : Cons k (ElmParser.terminated G (char c)) := fun s hs => by
  rcases hG k s hs with e | ⟨v, r, e, hr⟩
  · exact .inl (by rw [terminated_apply, e]; rfl)
  · rw [terminated_apply, e, andThen_ok]
    cases r with
    | nil => exact .inl rfl
    | cons x r =>
      by_cases hx : x = c
      · subst hx
        rw [char_cons]
        refine .inr ⟨_, _, rfl, ?_, ?_⟩
        · exact (List.suffix_cons x r).trans hr
        · exact Nat.lt_of_lt_of_le (Nat.lt_succ_self _) hr.length_le
      · rw [char_cons_ne _ hx]; exact .inl rfl

theorem er_suffix {p : TP α} {q : Parser α} (h : Er p q) (hq : ∀ k, Cons k q) (t : Str) (v : α) (r : Str)
    (e : (p t).1 = .ok v r) : r <:+ t ∧ r.length < t.length := by
  rw [h t] at e
  exact ⟨suffix_of_ok (fun k => (hq k).good) e, lt_of_ok hq e⟩

theorem er_recordField {R : TRec} {S : ExprRec} (h : ∀ ind, Er (R ind) (S ind)) (ind : Nat) :
    Er (recordField R ind) (ElmParser.recordField S ind) := by
  unfold recordField ElmParser.recordField
  exact er_separatedPair (er_free _) (er_delimited (er_opt (er_free _)) (er_free _) (er_opt (er_free _))) (h ind)
theorem er_updateField {R : TRec} {S : ExprRec} (h : ∀ ind, Er (R ind) (S ind)) (ind : Nat) :
    Er (updateField R ind) (ElmParser.updateField S ind) := by
  unfold updateField ElmParser.updateField
  exact er_bind (er_free _) fun _ => er_bind (er_free _) fun _ => er_bind (er_free _) fun _ => er_bind (er_free _) fun _ =>
    er_bind (h ind) fun _ => er_pure _

/-- Items of a list between brackets. -/
theorem items_closed {sep : Parser β} {p : TP α} {C : Parser γ} {s : Str} (hs : ∀ k, Cons k sep)
    (hp : ∀ t v r, (p t).1 = .ok v r → r <:+ t ∧ r.length < t.length) (h : ∀ t, t <:+ s → Once 0 t (p t))
    (hd : ∀ r, Dead r → sep r = .err ∧ C r = .err) (hc : ∀ t x u, sep t = .ok x u → C t = .err) :
    Items sep p (fun r => C r = .err) s where
  sepCons := hs
  suffix := hp
  once t ht := ⟨(h t ht).1, fun v r e => ((h t ht).2 v r e).imp id (hd r)⟩
  err t u x _ e _ := .inr (hc t x u e)

/-- Expressions of shorter texts are read once. -/
def Shorter (n : Nat) : Prop := ∀ ind t, t.length < n → Straight t → Once 0 t (expression ind t)

/-! ### Where calls can happen -/

theorem calls_alt_zero {p q : TP α} {s : Str} (hp : calls (p s) = 0) (hq : calls (q s) = 0) : calls ((p </> q) s) = 0 := by
  unfold alt
  cases e : p s with
  | mk x n =>
    rw [e] at hp
    cases x with
    | err => exact (List.countP_append ..).trans (by have h : List.countP _ n = 0 := hp; have h' : List.countP _ (q s).2 = 0 := hq; rw [h, h'])
    | ok _ _ => exact hp
    | panic => exact hp
    | div => exact hp

theorem calls_pmap (p : TP α) (f : α → β) (s : Str) : calls (pmap p f s) = calls (p s) := by
  show calls (andThen (p s) _) = _
  rcases ok_or (p s) with ⟨v, r, e⟩ | e
  · exact calls_andThen_ok (f := fun v => (pure (f v) : TP β)) e
  · exact (calls_andThen_ne (f := fun v => (pure (f v) : TP β)) e).1

theorem calls_bind_err {p : Parser α} {f : α → TP β} {s : Str} (h : p s = .err) :
    calls ((free p >>= f) s) = 0 ∧ ((free p >>= f) s).1 = .err := by
  rw [quiet_bind h]; exact ⟨rfl, rfl⟩

theorem calls_character (s : Str) : calls (character s) = 0 := by
  unfold calls num
  rcases character_events s with e | ⟨a, b, r, -, e⟩ <;> rw [e] <;> rfl

theorem preceded_err {p : Parser α} {q : Parser β} {s : Str} (h : p s = .err) : ElmParser.preceded p q s = .err := by
  rw [preceded_apply, h]; rfl

/-- The parts of a term that need an opening bracket. -/
theorem list_quiet {ind : Nat} {s : Str} (h : char '[' s = .err) : calls (list expression ind s) = 0 ∧ (list expression ind s).1 = .err := by
  unfold list
  rw [free_opt, free_preceded]
  have k : delimited (free (ElmParser.preceded (char '[') (ElmParser.opt (gap ind .GTE)))) (opt (sepList (free (commaSep ind)) (expression ind)))
      (terminated (free (ElmParser.opt (gap ind .GTE))) (free (char ']'))) s = (.err, []) := quiet_bind (preceded_err h)
  constructor
  · rw [calls_pmap, k]; rfl
  · show (andThen _ _).1 = _
    rw [k]; rfl
theorem record_quiet {ind : Nat} {s : Str} (h : char '{' s = .err) :
    calls (record expression ind s) = 0 ∧ (record expression ind s).1 = .err := by
  unfold record
  rw [free_opt, free_preceded]
  have k : delimited (free (ElmParser.preceded (char '{') (ElmParser.opt (gap ind .GTE)))) (sepList (free (commaSep ind)) (recordField expression ind))
      (terminated (free (ElmParser.opt (gap ind .GTE))) (free (char '}'))) s = (.err, []) := quiet_bind (preceded_err h)
  constructor
  · rw [calls_pmap, k]; rfl
  · show (andThen _ _).1 = _
    rw [k]; rfl
theorem recordUpdate_quiet {ind : Nat} {s : Str} (h : char '{' s = .err) :
    calls (recordUpdate expression ind s) = 0 ∧ (recordUpdate expression ind s).1 = .err := by
  unfold recordUpdate
  rw [free_preceded]
  exact calls_bind_err (preceded_err h)
theorem parens_quiet {ind : Nat} {s : Str} (h : char '(' s = .err) :
    calls (parens expression ind s) = 0 ∧ (parens expression ind s).1 = .err := calls_bind_err h
theorem tuple_quiet {ind : Nat} {s : Str} (h : char '(' s = .err) :
    calls (tuple expression ind s) = 0 ∧ (tuple expression ind s).1 = .err := by
  unfold tuple
  rw [calls_pmap]
  refine ⟨(calls_bind_err h).1, ?_⟩
  show (andThen _ _).1 = _
  have := (calls_bind_err (f := fun _ => do
    let v ← sepList (free (char ',')) (delimited (free multispace0) (expression ind) (free multispace0))
    let _ ← free (char ')')
    pure v) h).2
  show (andThen ((free (char '(') >>= fun _ => do
    let v ← sepList (free (char ',')) (delimited (free multispace0) (expression ind) (free multispace0))
    let _ ← free (char ')')
    pure v) s) _).1 = _
  rw [quiet_bind h]; rfl

theorem term_quiet {ind : Nat} {s : Str} (h1 : char '(' s = .err) (h2 : char '[' s = .err) (h3 : char '{' s = .err) :
    calls (termF expression ind s) = 0 := by
  unfold termF
  refine calls_alt_zero rfl (calls_alt_zero rfl (calls_alt_zero rfl (calls_alt_zero rfl (calls_alt_zero rfl
    (calls_alt_zero rfl (calls_alt_zero (calls_character s) ?_))))))
  exact calls_alt_zero (parens_quiet h1).1 (calls_alt_zero (list_quiet h2).1 (calls_alt_zero (tuple_quiet h1).1
    (calls_alt_zero (recordUpdate_quiet h3).1 (calls_alt_zero (record_quiet h3).1 rfl))))

theorem straight_paren {s : Str} (h : Straight s) : char '(' s = .err := char_ne fun _ hc e => h.paren (e ▸ hc)

/-- A term with calls is a list or a record. -/
theorem term_opens {ind : Nat} {s : Str} (hs : Straight s) (h : 0 < calls (termF expression ind s)) : Opens s := by
  cases s with
  | nil => rw [term_quiet rfl rfl rfl] at h; omega
  | cons c s =>
    by_cases h2 : c = '['
    · exact ⟨s, .inl (by rw [h2])⟩
    · by_cases h3 : c = '{'
      · exact ⟨s, .inr (by rw [h3])⟩
      · rw [term_quiet (straight_paren hs) (char_cons_ne s h2) (char_cons_ne s h3)] at h; omega

/-! ### Applications -/

theorem st_term (ind : Nat) (t : Str) (v : Expr) (r : Str) (e : (termF expression ind t).1 = .ok v r) :
    r <:+ t ∧ r.length < t.length := er_suffix (er_termF er_expression ind) (fun k => cons_termE k ind) t v r e

theorem app_not {ind : Nat} {s : Str} (h : ∀ v r, (termF expression ind s).1 ≠ .ok v r) :
    calls (applicationOrVar expression ind s) = calls (termF expression ind s) ∧
      ∀ v r, (applicationOrVar expression ind s).1 ≠ .ok v r := by
  unfold applicationOrVar
  show calls (andThen (sepList _ _ s) _) = _ ∧ ∀ v r, (andThen (sepList _ _ s) _).1 ≠ _
  unfold sepList
  cases e : termF expression ind s with
  | mk x n =>
    rw [e] at h
    cases x with
    | ok v r => exact absurd rfl (h v r)
    | err =>
      refine ⟨?_, fun v r e => by cases e⟩
      exact (calls_andThen_ok (x := (.ok [] s, n)) rfl)
    | panic => exact ⟨rfl, fun v r e => by cases e⟩
    | div => exact ⟨rfl, fun v r e => by cases e⟩

/-- What `application_or_var` does with its terms has no calls, and does not fail. -/
theorem app_finish (v : Expr) (vs : List Expr) (r : Str) : ∃ e, (
    if (v :: vs).isEmpty then free Parser.fail
    else if (v :: vs).length == 1 then free (index (v :: vs) 0)
    else do
      let a ← free (index (v :: vs) 0)
      let b ← free (index (v :: vs) 1)
      pure (((v :: vs).drop 2).foldl (fun app entry => .Application app entry) (.Application a b)) : TP Expr) r = (.ok e r, []) := by
  cases vs with
  | nil => exact ⟨_, rfl⟩
  | cons w vs => exact ⟨_, rfl⟩

theorem app_ok {ind : Nat} {s r : Str} {v : Expr} (h : (termF expression ind s).1 = .ok v r) :
    calls (applicationOrVar expression ind s) =
      calls (termF expression ind s) + calls (sepLoop (free (gap ind .GT)) (termF expression ind) (r.length + 1) r) ∧
      (applicationOrVar expression ind s).1 ≠ .err ∧
      ∀ w q, (applicationOrVar expression ind s).1 = .ok w q →
        ∃ vs, (sepLoop (free (gap ind .GT)) (termF expression ind) (r.length + 1) r).1 = .ok vs q := by
  have hl := (st_term ind s v r h).2
  unfold applicationOrVar
  show calls (andThen (sepList _ _ s) _) = _ ∧ (andThen (sepList _ _ s) _).1 ≠ _ ∧ ∀ w q, (andThen (sepList _ _ s) _).1 = _ → _
  unfold sepList
  cases e : termF expression ind s with
  | mk x n =>
    rw [e] at h
    simp only at h
    subst h
    simp only
    rw [if_neg (by omega)]
    have hne := sepLoop_no_err (sep := free (gap ind .GT)) (p := termF expression ind) (r.length + 1) r
    cases el : sepLoop (free (gap ind .GT)) (termF expression ind) (r.length + 1) r with
    | mk y m =>
      rw [el] at hne
      have e1 : ∀ v, (do let vs ← sepLoop (free (gap ind .GT)) (termF expression ind) (r.length + 1); pure (v :: vs) : TP (List Expr)) r =
          andThen (y, m) fun vs => pure (v :: vs) := by
        intro v
        show andThen (sepLoop _ _ _ r) _ = _
        rw [el]
      simp only [andThen, e1]
      cases y with
      | err => exact absurd rfl hne
      | panic => exact ⟨List.countP_append, (by intro e; cases e), fun w q e => by cases e⟩
      | div => exact ⟨List.countP_append, (by intro e; cases e), fun w q e => by cases e⟩
      | ok vs q =>
        obtain ⟨e, he⟩ := app_finish v vs q
        simp only [pure, free, Parser.pure] at he ⊢
        rw [he]
        refine ⟨?_, (by intro e; cases e), fun w q' e => ?_⟩
        · simp only [List.append_nil]
          exact List.countP_append
        · cases e
          exact ⟨vs, rfl⟩

/-! ### When an expression fails -/

theorem opt_no_err (p : TP α) (s : Str) : (opt p s).1 ≠ .err := by
  unfold opt alt
  split
  · intro e; cases e
  · rename_i h
    intro e
    cases h' : pmap p some s with
    | mk x n =>
      rw [h'] at e
      simp only at e
      subst e
      exact h n h'

theorem binary_err {ind : Nat} {s : Str} (h : (binary expression ind s).1 = .err) :
    calls (binary expression ind s) = calls (termF expression ind s) := by
  have no : ∀ a q, ((do
      let operator_exp ← opt (binaryTail expression ind)
      pure (match operator_exp with
        | some (op, exp) => .BinOp op a exp
        | none => a) : TP Expr) q).1 ≠ .err := by
    intro a q
    show (andThen (opt (binaryTail expression ind) q) _).1 ≠ _
    have := opt_no_err (binaryTail expression ind) q
    cases e : opt (binaryTail expression ind) q with
    | mk x n =>
      rw [e] at this
      cases x with
      | err => exact absurd rfl this
      | ok _ _ => intro e; cases e
      | panic => intro e; cases e
      | div => intro e; cases e
  unfold binary at h ⊢
  rcases ok_or (termF expression ind s) with ⟨v, r, e⟩ | e
  · obtain ⟨-, h1, -⟩ := app_ok e
    rcases ok_or (applicationOrVar expression ind s) with ⟨a, q, e'⟩ | e'
    · have := andThen_fst (f := fun a => (do
        let operator_exp ← opt (binaryTail expression ind)
        pure (match operator_exp with
          | some (op, exp) => .BinOp op a exp
          | none => a) : TP Expr)) e'
      exact absurd (this.symm.trans h) (no a q)
    · exfalso
      revert h
      show (andThen (applicationOrVar expression ind s) _).1 = _ → _
      cases e2 : applicationOrVar expression ind s with
      | mk x n =>
        rw [e2] at h1 e'
        cases x with
        | err => exact absurd rfl h1
        | ok v r => exact absurd rfl (e' v r)
        | panic => intro e; cases e
        | div => intro e; cases e
  · obtain ⟨h1, h2⟩ := app_not e
    rw [← h1]
    exact (calls_andThen_ne h2).1

theorem calls_mark (p : TP α) (s : Str) : calls (mark .call p s) = calls (p s) + 1 := by
  simp [calls, num, mark]

/-- Where an expression with further calls can fail. -/
def Opener (s : Str) : Prop := ∃ c u, s = c :: u ∧ (c = '[' ∨ c = '{' ∨ c = '\\' ∨ c = 'i')

theorem alt_err {p q : TP α} {s : Str} (h : ((p </> q) s).1 = .err) : (p s).1 = .err ∧ (q s).1 = .err ∧
    calls ((p </> q) s) = calls (p s) + calls (q s) := by
  unfold alt at h ⊢
  cases e : p s with
  | mk x n =>
    rw [e] at h
    cases x with
    | err => exact ⟨rfl, h, List.countP_append⟩
    | ok _ _ => cases h
    | panic => cases h
    | div => cases h

theorem expression_err {ind : Nat} {s : Str} (hs : Straight s) (h : (expression ind s).1 = .err) :
    calls (expression ind s) ≤ 1 ∨ Opener s := by
  by_cases ho : Opener s
  · exact .inr ho
  refine .inl ?_
  have hc : ∀ c, (c = '[' ∨ c = '{' ∨ c = '\\' ∨ c = 'i') → ∀ k, tag (c :: k) s = .err ∧ char c s = .err := by
    intro c hc k
    cases s with
    | nil => exact ⟨rfl, rfl⟩
    | cons d s =>
      have : d ≠ c := by rintro rfl; exact ho ⟨_, _, rfl, hc⟩
      exact ⟨tag_cons_ne this, char_cons_ne s this⟩
  rw [expression_unfold] at h ⊢
  rw [calls_mark]
  have h : (expressionF expression ind s).1 = .err := h
  unfold expressionF at h ⊢
  obtain ⟨h1, h, e1⟩ := alt_err h
  obtain ⟨-, h, e2⟩ := alt_err h
  obtain ⟨-, h, e3⟩ := alt_err h
  obtain ⟨-, -, e4⟩ := alt_err h
  have k1 := binary_err h1
  rw [term_quiet (straight_paren hs) (hc _ (.inl rfl) []).2 (hc _ (.inr (.inl rfl)) []).2] at k1
  have k2 : calls (letExpression expression ind s) = 0 := (calls_bind_err (tag_infix hs.let_)).1
  have k3 : calls (caseExpression expression ind s) = 0 := (calls_bind_err (tag_infix hs.case)).1
  have k4 : calls (ifExpression expression ind s) = 0 := (calls_bind_err (hc _ (.inr (.inr (.inr rfl))) _).1).1
  have k5 : calls (lambda expression ind s) = 0 := (calls_bind_err (hc _ (.inr (.inr (.inl rfl))) []).2).1
  omega

/-! ### Lists and records -/

theorem cons_opened (c : Char) {G : Parser α} (hG : ∀ k, Good k G) (k : Nat) : Cons k (ElmParser.preceded (char c) G) := by
  cases k with
  | zero => intro s hs; omega
  | succ k => exact cons_preceded (cons_char _ _) (hG k)

theorem opened_suffix {c : Char} {G : Parser α} (hG : ∀ k, Good k G) {s t : Str} {v : α}
    (h : ElmParser.preceded (char c) G s = .ok v t) : t <:+ s ∧ t.length < s.length :=
  ⟨suffix_of_ok (fun k => (cons_opened c hG k).good) h, lt_of_ok (cons_opened c hG) h⟩

theorem suffix_lt {s t u : Str} (h : t <:+ u) (hu : u.length < s.length) : t.length < s.length :=
  Nat.lt_of_le_of_lt h.length_le hu

section
variable {ind : Nat} {s : Str}

theorem clean_list (hn : Shorter s.length) (hs : Straight s) : Clean 1 s (list expression ind s) := by
  unfold list
  rw [free_opt, free_preceded, free_terminated]
  refine clean_pmap _ (clean_delimited (D := fun r => ElmParser.terminated (ElmParser.opt (gap ind .GTE)) (char ']') r = .err)
    (cons_opened _ fun k => good_oGap k ind _) (cons_close (fun k => good_oGap k ind _) _) (fun r h => h) fun v t e => ?_)
  obtain ⟨ht, hl⟩ := opened_suffix (fun k => good_oGap k ind _) e
  have hp := er_suffix (er_expression ind) fun k => cons_expression k ind
  refine counted_opt (counted_sepList (items_closed (fun k => cons_commaSep k ind) hp (fun u hu => ?_) (fun r h => ?_)
    fun u x w h => ?_) fun h => ?_) (sepList_no_err fun v r e => (hp t v r e).2)
  · exact hn ind u (suffix_lt hu hl) (hs.suffix (hu.trans ht))
  · exact ⟨dead_sep (gapLike_opt ind) (fun k => cons_commaSep k ind) h (.inl rfl),
      dead_close (gapLike_opt ind) (cons_close (fun k => good_oGap k ind _) _) h (.inr (.inl rfl))⟩
  · exact sep_close (gapLike_opt ind) (gapLike_opt ind) (cons_close (fun k => good_oGap k ind _) _) (by decide) h
  · refine (expression_err (hs.suffix ht) h).imp id ?_
    rintro ⟨c, u, rfl, hc⟩
    exact head_close (gapLike_opt ind) (cons_close (fun k => good_oGap k ind _) _)
      (by rcases hc with rfl | rfl | rfl | rfl <;> decide) (by rcases hc with rfl | rfl | rfl | rfl <;> decide)

theorem good_eqSign (k : Nat) : Good k (ElmParser.delimited (ElmParser.opt (gap ind .GTE)) (char '=') (ElmParser.opt (gap ind .GTE))) :=
  (delimited_cons (good_oGap k ind _) (cons_char k _) (good_oGap k ind _)).good

theorem recordField_eq : recordField expression ind = (free loName >>= fun n =>
    free (ElmParser.delimited (ElmParser.opt (gap ind .GTE)) (char '=') (ElmParser.opt (gap ind .GTE))) >>= fun _ =>
      expression ind >>= fun e => pure (n, e)) := by
  unfold recordField separatedPair
  rw [free_opt, free_delimited]

theorem once_recordField (hn : Shorter s.length) (hs : Straight s) : Once 0 s (recordField expression ind s) := by
  rw [recordField_eq]
  refine once_free (b := 0) (Nat.zero_le _) fun v r e => ?_
  have h1 := lt_of_ok cons_loName e
  have h2 := suffix_of_ok (fun k => (cons_loName k).good) e
  refine ⟨by omega, once_free (b := 0) (Nat.zero_le _) fun v r' e => ?_⟩
  have h3 := suffix_of_ok (fun k => good_eqSign k) e
  refine ⟨by have := h3.length_le; omega, once_bind (hn ind r' (suffix_lt h3 h1) (hs.suffix (h3.trans h2)))
    (fun v r _ => once_pure _ _) fun v r _ h => quiet_pure _ _ h⟩

/-- A field with calls starts with a name. -/
theorem loName_start {s r : Str} {n : Name} (h : loName s = .ok n r) : ∃ c u, s = c :: u ∧ (c = '_' ∨ Lower c) := by
  obtain ⟨rfl, hn⟩ := loName_sound h
  obtain ⟨c, t, rfl, hc⟩ := loName_head hn
  exact ⟨c, t ++ r, rfl, hc⟩

theorem start_close {G : Parser α} (hG : GapLike ind G) (hg : ∀ k, Good k G) {s r : Str} {n : Name} (h : loName s = .ok n r) :
    ElmParser.terminated G (char '}') s = .err := by
  obtain ⟨c, u, rfl, hc⟩ := loName_start h
  refine head_close hG (cons_close hg _) ⟨?_, ?_, ?_⟩ ?_ <;> rintro rfl <;> revert hc <;> decide

theorem bind_calls_pos {p : Parser α} {f : α → TP β} {s : Str} (h : 0 < calls ((free p >>= f) s)) :
    ∃ v r, p s = .ok v r ∧ 0 < calls (f v r) := by
  rcases ok_or (p s, ([] : List Event)) with ⟨v, r, e⟩ | e
  · refine ⟨v, r, e, ?_⟩
    have := calls_andThen_ok (f := f) e
    have h : 0 < calls (andThen (p s, []) f) := h
    rw [this] at h
    have h0 : calls (p s, ([] : List Event)) = 0 := rfl
    omega
  · have h : 0 < calls (andThen (p s, []) f) := h
    rw [(calls_andThen_ne e).1] at h
    exact absurd h (Nat.lt_irrefl 0)

theorem clean_record (hn : Shorter s.length) (hs : Straight s) : Clean 1 s (record expression ind s) := by
  unfold record
  rw [free_opt, free_preceded, free_terminated]
  refine clean_pmap _ (clean_delimited (D := fun r => ElmParser.terminated (ElmParser.opt (gap ind .GTE)) (char '}') r = .err)
    (cons_opened _ fun k => good_oGap k ind _) (cons_close (fun k => good_oGap k ind _) _) (fun r h => h) fun v t e => ?_)
  obtain ⟨ht, hl⟩ := opened_suffix (fun k => good_oGap k ind _) e
  have hp := er_suffix (er_recordField er_expression ind) fun k => cons_recordField k
  refine counted_sepList (items_closed (fun k => cons_commaSep k ind) hp (fun u hu => ?_) (fun r h => ?_)
    fun u x w h => ?_) fun h => ?_
  · exact once_recordField (fun i w hw hs => hn i w (Nat.lt_trans hw (suffix_lt hu hl)) hs) (hs.suffix (hu.trans ht))
  · exact ⟨dead_sep (gapLike_opt ind) (fun k => cons_commaSep k ind) h (.inl rfl),
      dead_close (gapLike_opt ind) (cons_close (fun k => good_oGap k ind _) _) h (.inr (.inr rfl))⟩
  · exact sep_close (gapLike_opt ind) (gapLike_opt ind) (cons_close (fun k => good_oGap k ind _) _) (by decide) h
  · by_cases h0 : 0 < calls (recordField expression ind t)
    · rw [recordField_eq] at h0
      obtain ⟨n, r, e, -⟩ := bind_calls_pos h0
      exact .inr (start_close (gapLike_opt ind) (fun k => good_oGap k ind _) e)
    · exact .inl (by omega)

theorem once_updateField (hn : Shorter s.length) (hs : Straight s) : Once 0 s (updateField expression ind s) := by
  unfold updateField
  refine once_free (b := 0) (Nat.zero_le _) fun v r e => ?_
  have h1 := lt_of_ok cons_loName e
  have h2 := suffix_of_ok (fun k => (cons_loName k).good) e
  refine ⟨by omega, once_free (b := 0) (Nat.zero_le _) fun v r' e => ?_⟩
  have h3 := suffix_of_ok good_multispace0 e
  refine ⟨by have := h3.length_le; omega, once_free (b := 0) (Nat.zero_le _) fun v r2 e => ?_⟩
  have h4 := suffix_of_ok (fun k => (cons_char k _).good) e
  refine ⟨by have := h4.length_le; omega, once_free (b := 0) (Nat.zero_le _) fun v r3 e => ?_⟩
  have h5 := suffix_of_ok good_multispace0 e
  have h6 := (h5.trans (h4.trans h3))
  refine ⟨by have := h5.length_le; omega, once_bind (hn ind r3 (suffix_lt h6 h1) (hs.suffix (h6.trans h2)))
    (fun v r _ => once_pure _ _) fun v r _ h => quiet_pure _ _ h⟩

theorem counted_free {p : Parser α} {f : α → TP β} {D : Str → Prop} {s : Str}
    (h : ∀ v r, p s = .ok v r → r.length ≤ s.length ∧ Counted (r.length + 1) D (f v r)) :
    Counted (s.length + 1) D ((free p >>= f) s) := by
  show Counted _ D (andThen (p s, []) f)
  rcases ok_or (p s, ([] : List Event)) with ⟨v, r, e⟩ | e
  · have ec := calls_andThen_ok (f := f) e
    have ef := andThen_fst (f := f) e
    have e0 : calls (p s, ([] : List Event)) = 0 := rfl
    obtain ⟨k, k1, k2⟩ := h v r e
    refine ⟨by omega, fun w q eq => ?_⟩
    rw [ef] at eq
    rcases k2 w q eq with k | k
    · exact .inl (by omega)
    · exact .inr k
  · obtain ⟨ec, ef⟩ := calls_andThen_ne (f := f) e
    have e0 : calls (p s, ([] : List Event)) = 0 := rfl
    exact ⟨by omega, fun w q eq => absurd eq (ef w q)⟩

theorem calls_bind_free {p : TP α} {f : α → TP β} {s : Str} (h : ∀ v r, calls (f v r) = 0) :
    calls ((p >>= f) s) = calls (p s) := by
  show calls (andThen (p s) f) = _
  rcases ok_or (p s) with ⟨v, r, e⟩ | e
  · rw [calls_andThen_ok e, h v r, Nat.add_zero]
  · exact (calls_andThen_ne e).1

theorem calls_closing (C : Parser β) (v : α) (q : Str) : calls ((free C >>= fun _ => (pure v : TP α)) q) = 0 := by
  show calls (andThen (C q, []) _) = 0
  cases C q <;> rfl

theorem free_preceded_opt (p : Parser α) (q : Parser β) :
    preceded (free p) (opt (free q)) = free (ElmParser.preceded p (ElmParser.opt q)) := by
  rw [free_opt, free_preceded]

theorem bind_ok_eq {p : Parser α} {f : α → TP β} {s r : Str} {v : α} (h : p s = .ok v r) : (free p >>= f) s = f v r := by
  show andThen (p s, []) f = _
  rw [h]; rfl
theorem bind_ok0 {p : TP α} {f : α → TP β} {s r : Str} {v : α} (h : p s = (.ok v r, [])) : (p >>= f) s = f v r := by
  show andThen (p s) f = _
  rw [h]; rfl
theorem bind_err_eq {p : TP α} {f : α → TP β} {s : Str} (h : p s = (.err, [])) : (p >>= f) s = (.err, []) := by
  show andThen (p s) f = _
  rw [h]; rfl

/-- The parser calls something or succeeds. -/
def Alive (x : Res α × List Event) : Prop := 0 < calls x ∨ ∃ v r, x.1 = .ok v r

theorem bind_alive {p : Parser α} {f : α → TP β} {s : Str} (h : Alive ((free p >>= f) s)) :
    ∃ v r, p s = .ok v r ∧ Alive (f v r) := by
  cases e : p s with
  | ok v r =>
    rw [bind_ok_eq e] at h
    exact ⟨v, r, rfl, h⟩
  | err =>
    rw [quiet_bind e] at h
    rcases h with h | ⟨v, r, h⟩
    · exact absurd h (Nat.lt_irrefl 0)
    · cases h
  | panic =>
    have : (free p >>= f) s = (.panic, []) := by
      show andThen (p s, []) f = _
      rw [e]; rfl
    rw [this] at h
    rcases h with h | ⟨v, r, h⟩
    · exact absurd h (Nat.lt_irrefl 0)
    · cases h
  | div =>
    have : (free p >>= f) s = (.div, []) := by
      show andThen (p s, []) f = _
      rw [e]; rfl
    rw [this] at h
    rcases h with h | ⟨v, r, h⟩
    · exact absurd h (Nat.lt_irrefl 0)
    · cases h

theorem alive_sepList {sep : TP β} {p : TP α} {s : Str} (h : 0 < calls (sepList sep p s)) : Alive (p s) := by
  unfold sepList at h
  cases e : p s with
  | mk x n =>
    rw [e] at h
    cases x with
    | ok v r => exact .inr ⟨v, r, rfl⟩
    | err => exact .inl h
    | panic => exact .inl h
    | div => exact .inl h

theorem clean_recordUpdate (hn : Shorter s.length) (hs : Straight s) : Clean 1 s (recordUpdate expression ind s) := by
  unfold recordUpdate
  rw [free_preceded, free_terminated, updateSep_free]
  refine clean_delimited (D := fun r => ElmParser.terminated (gap ind .GTE) (char '}') r = .err)
    (cons_opened _ fun k => good_optGap k ind _) (cons_close (fun k => (cons_gap k ind _).good) _) (fun r h => h) fun v t e => ?_
  obtain ⟨ht, hl⟩ := opened_suffix (fun k => good_optGap k ind _) e
  have hp := er_suffix (er_updateField er_expression ind) fun k => cons_updateField k
  refine counted_free fun v r e => ?_
  have h1 := suffix_of_ok (fun k => (cons_loName k).good) e
  refine ⟨h1.length_le, counted_free fun v r2 e => ?_⟩
  have h2 := suffix_of_ok (fun k => good_optGap k ind _) e
  refine ⟨h2.length_le, counted_free fun v r3 e => ?_⟩
  have h3 := suffix_of_ok (fun k => (cons_char k _).good) e
  refine ⟨h3.length_le, counted_free fun v r4 e => ?_⟩
  have h4 := suffix_of_ok good_multispace0 e
  have h5 := h4.trans (h3.trans (h2.trans h1))
  refine ⟨h4.length_le, counted_pure _ (counted_sepList (items_closed (fun k => cons_updateSep k) hp (fun u hu => ?_) (fun r h => ?_)
    fun u x w h => ?_) fun h => ?_)⟩
  · exact once_updateField (fun i w hw hs => hn i w (Nat.lt_trans hw (suffix_lt (hu.trans h5) hl)) hs)
      (hs.suffix ((hu.trans h5).trans ht))
  · exact ⟨dead_sep (gapLike_optGap ind) (fun k => cons_updateSep k) h (.inl rfl),
      dead_close (gapLike_gap ind) (cons_close (fun k => (cons_gap k ind _).good) _) h (.inr (.inr rfl))⟩
  · exact sep_close (gapLike_optGap ind) (gapLike_gap ind) (cons_close (fun k => (cons_gap k ind _).good) _) (by decide) h
  · by_cases h0 : 0 < calls (updateField expression ind r4)
    · unfold updateField at h0
      obtain ⟨n, r, e, -⟩ := bind_calls_pos h0
      exact .inr (start_close (gapLike_gap ind) (fun k => (cons_gap k ind _).good) e)
    · exact .inl (by omega)

/-- The text of a record update. -/
theorem recordUpdate_calls (h : 0 < calls (recordUpdate expression ind s)) :
    ∃ n g1 g2 t, s = '{' :: (g1 ++ (n ++ (g2 ++ '|' :: t))) ∧ OptGapTxt ind .GTE g1 ∧ LoName n ∧ OptGapTxt ind .GTE g2 := by
  unfold recordUpdate at h
  rw [free_preceded, free_terminated] at h
  obtain ⟨i, r, e, k⟩ := bind_calls_pos h
  obtain ⟨a, r0, e0, e'⟩ := preceded_eq_ok.1 e
  obtain ⟨-, rfl⟩ := char_eq_ok.1 e0
  rw [calls_bind_free fun v q => calls_closing (ElmParser.terminated (gap ind .GTE) (char '}')) v q] at k
  obtain ⟨n, r1, e1, k⟩ := bind_calls_pos k
  obtain ⟨j, r2, e2, k⟩ := bind_calls_pos k
  obtain ⟨c, r3, e3, k⟩ := bind_calls_pos k
  obtain ⟨-, rfl⟩ := char_eq_ok.1 e3
  obtain ⟨rfl, hn⟩ := loName_sound e1
  obtain ⟨g2, rfl, hg2⟩ := optGap'_of_ok e2 (by simp)
  obtain ⟨g1, rfl, hg1⟩ := optGap'_of_ok e' (by
    obtain ⟨c, t, rfl, -⟩ := loName_head hn
    simp)
  exact ⟨n, g1, g2, r3, rfl, hg1, hn, hg2⟩

/-- The text of a record with fields. -/
theorem record_calls (h : 0 < calls (record expression ind s)) :
    ∃ n g1 g2 t, s = '{' :: (g1 ++ (n ++ (g2 ++ '=' :: t))) ∧ OptGapTxt ind .GTE g1 ∧ LoName n ∧ OptGapTxt ind .GTE g2 := by
  unfold record at h
  rw [calls_pmap, free_preceded_opt, free_opt, free_terminated] at h
  obtain ⟨i, r, e, k⟩ := bind_calls_pos h
  obtain ⟨a, r0, e0, e'⟩ := preceded_eq_ok.1 e
  obtain ⟨-, rfl⟩ := char_eq_ok.1 e0
  rw [calls_bind_free fun v q => calls_closing (ElmParser.terminated (ElmParser.opt (gap ind .GTE)) (char '}')) v q] at k
  have k := alive_sepList k
  rw [recordField_eq] at k
  obtain ⟨n, r1, e1, k⟩ := bind_alive k
  obtain ⟨c, r2, e2, k⟩ := bind_alive k
  obtain ⟨o, r3, r4, b, e2, e3, -⟩ := delimited_eq_ok.1 e2
  obtain ⟨-, rfl⟩ := char_eq_ok.1 e3
  obtain ⟨rfl, hn⟩ := loName_sound e1
  obtain ⟨g2, rfl, hg2⟩ := optGap_of_ok e2 (by simp)
  obtain ⟨g1, rfl, hg1⟩ := optGap_of_ok e' (by
    obtain ⟨c, t, rfl, -⟩ := loName_head hn
    simp)
  exact ⟨n, g1, g2, r4, rfl, hg1, hn, hg2⟩

/-- A record update is no record. -/
theorem record_bar {n g1 g2 t : Str} (h1 : OptGapTxt ind .GTE g1) (hn : LoName n) (h2 : OptGapTxt ind .GTE g2) :
    record expression ind ('{' :: (g1 ++ (n ++ (g2 ++ '|' :: t)))) = (.err, []) := by
  unfold record
  rw [free_preceded_opt, free_opt, free_terminated]
  obtain ⟨o1, e1⟩ := h1.opt (r := n ++ (g2 ++ '|' :: t)) (loName_noGap hn)
  obtain ⟨o2, e2⟩ := h2.opt (r := '|' :: t) (noGap_of_ne (by decide))
  have e0 := loName_complete hn (optGap_ident (r := t) (x := '|') h2 (by decide))
  have hf : recordField expression ind (n ++ (g2 ++ '|' :: t)) = (.err, []) := by
    rw [recordField_eq, bind_ok_eq e0]
    refine quiet_bind ?_
    rw [delimited_apply, e2]; rfl
  have hl : sepList (free (commaSep ind)) (recordField expression ind) (n ++ (g2 ++ '|' :: t)) =
      (.ok [] (n ++ (g2 ++ '|' :: t)), []) := by
    unfold sepList
    rw [hf]
  have hO : ElmParser.preceded (char '{') (ElmParser.opt (gap ind .GTE)) ('{' :: (g1 ++ (n ++ (g2 ++ '|' :: t)))) =
      .ok o1 (n ++ (g2 ++ '|' :: t)) := by
    rw [preceded_apply, char_cons, andThen_ok, e1]
  have hC := start_close (gapLike_opt ind) (fun k => good_oGap k ind _) e0
  unfold pmap delimited
  refine bind_err_eq ?_
  rw [bind_ok_eq hO, bind_ok0 hl]
  exact quiet_bind hC

/-- No calls and no result. -/
def None (x : Res α × List Event) : Prop := calls x = 0 ∧ ∀ v r, x.1 ≠ .ok v r

theorem none_err {x : Res α × List Event} (h : x = (.err, [])) : None x := by
  rw [h]; exact ⟨rfl, fun v r e => by cases e⟩
theorem none_quiet {x : Res α × List Event} (h : calls x = 0 ∧ x.1 = .err) : None x :=
  ⟨h.1, fun v r e => by rw [h.2] at e; cases e⟩
theorem none_alt {p q : TP α} {s : Str} (hp : None (p s)) (hq : None (q s)) : None ((p </> q) s) := by
  refine ⟨calls_alt_zero hp.1 hq.1, ?_⟩
  unfold alt
  cases e : p s with
  | mk x n =>
    rw [e] at hp
    cases x with
    | err => exact hq.2
    | ok v r => exact absurd rfl (hp.2 v r)
    | panic => exact hp.2
    | div => exact hp.2

theorem clean_term (hn : Shorter s.length) (hs : Straight s) : Clean 1 s (termF expression ind s) := by
  have hp := straight_paren hs
  unfold termF
  refine clean_alt (clean_free cons_access s) ?_ fun _ h => absurd h (Nat.lt_irrefl 0)
  refine clean_alt (clean_free cons_variableP s) ?_ fun _ h => absurd h (Nat.lt_irrefl 0)
  refine clean_alt (clean_free cons_accessFunction s) ?_ fun _ h => absurd h (Nat.lt_irrefl 0)
  refine clean_alt (clean_free cons_string s) ?_ fun _ h => absurd h (Nat.lt_irrefl 0)
  refine clean_alt (clean_free cons_float s) ?_ fun _ h => absurd h (Nat.lt_irrefl 0)
  refine clean_alt (clean_free cons_integer s) ?_ fun _ h => absurd h (Nat.lt_irrefl 0)
  refine clean_alt ⟨?_, fun v r e => ?_⟩ ?_ fun _ h => ?_
  · rw [calls_character]; omega
  · have := (er_suffix er_character cons_character s v r e).2
    rw [calls_character]; omega
  · refine clean_alt ?_ ?_ fun _ h => ?_
    · obtain ⟨h1, h2⟩ := parens_quiet (ind := ind) hp
      exact ⟨by rw [h1]; omega, fun v r e => by rw [h2] at e; cases e⟩
    · refine clean_alt (clean_list hn hs) ?_ fun _ h => ?_
      · refine clean_alt ?_ ?_ fun _ h => ?_
        · obtain ⟨h1, h2⟩ := tuple_quiet (ind := ind) hp
          exact ⟨by rw [h1]; omega, fun v r e => by rw [h2] at e; cases e⟩
        · refine clean_alt (clean_recordUpdate hn hs) ?_ fun _ h => ?_
          · refine clean_alt (clean_record hn hs) (clean_free cons_simplifiedRecord s) fun _ h => ?_
            obtain ⟨n, g1, g2, t, rfl, h1, h2, h3⟩ := record_calls h
            refine ⟨rfl, fun v r e => ?_⟩
            have e : simplifiedRecord _ = .ok v r := e
            rw [simplifiedRecord_err_sep h1 h2 h3 (.inr rfl)] at e; cases e
          · obtain ⟨n, g1, g2, t, rfl, h1, h2, h3⟩ := recordUpdate_calls h
            refine none_alt (none_err (record_bar h1 h2 h3)) (none_err ?_)
            unfold free
            rw [simplifiedRecord_err_sep h1 h2 h3 (.inl rfl)]
        · rw [(tuple_quiet hp).1] at h; omega
      · have hc : char '{' s = .err := by
          cases s with
          | nil => rfl
          | cons c s =>
            by_cases hc : c = '['
            · subst hc; rfl
            · rw [(list_quiet (char_cons_ne s hc)).1] at h; omega
        refine none_alt (none_quiet (tuple_quiet hp)) (none_alt (none_quiet (recordUpdate_quiet hc))
          (none_alt (none_quiet (record_quiet hc)) ⟨rfl, fun v r e => ?_⟩))
        have e : simplifiedRecord s = .ok v r := e
        obtain ⟨fs, c, -, rfl, -⟩ := simplifiedRecord_sound' e
        cases hc
    · rw [(parens_quiet hp).1] at h; omega
  · rw [calls_character] at h; omega

theorem items_terms {sep : Parser β} {D : Str → Prop} (hsep : ∀ k, Cons k sep) (hn : Shorter s.length) (hs : Straight s)
    (hD : ∀ t u x, sep t = .ok x u → Opens u → D t) {r : Str} (hr : r <:+ s) (hl : r.length < s.length) :
    Items sep (termF expression ind) D r where
  sepCons := hsep
  suffix := st_term ind
  once t ht := by
    have := clean_term (ind := ind) (s := t) (fun i w hw hs => hn i w (Nat.lt_trans hw (suffix_lt ht hl)) hs) (hs.suffix (ht.trans hr))
    exact ⟨by have := this.1; omega, fun v r e => .inl (by have := this.2 v r e; omega)⟩
  err t u x ht e _ := by
    have hu := suffix_of_ok (fun k => (hsep k).good) e
    by_cases h0 : 0 < calls (termF expression ind u)
    · exact .inr (hD t u x e (term_opens (hs.suffix (hu.trans (ht.trans hr))) h0))
    · exact .inl (by omega)

/-- Applications: a failed argument is a list or record. -/
theorem once_app (hn : Shorter s.length) (hs : Straight s) : calls (applicationOrVar expression ind s) ≤ s.length ∧
    ∀ w q, (applicationOrVar expression ind s).1 = .ok w q →
      calls (applicationOrVar expression ind s) + 1 + q.length ≤ s.length ∨ DeadArg q := by
  have h := clean_term (ind := ind) hn hs
  rcases ok_or (termF expression ind s) with ⟨v, r, e⟩ | e
  · obtain ⟨k1, -, k2⟩ := app_ok e
    obtain ⟨hr, hl⟩ := st_term ind s v r e
    have k3 := counted_sepLoop (items_terms (ind := ind) (fun k => cons_gap k ind .GT) hn hs
      (D := DeadArg) (fun t u x e h => deadArg_of_gap e h) hr hl) (r.length + 1) r (List.suffix_refl r)
    have k4 := h.2 v r e
    refine ⟨by have := k3.1; omega, fun w q eq => ?_⟩
    obtain ⟨vs, eq⟩ := k2 w q eq
    rcases k3.2 vs q eq with k | k
    · exact .inl (by omega)
    · exact .inr k
  · obtain ⟨k1, k2⟩ := app_not e
    exact ⟨by have := h.1; omega, fun w q eq => absurd eq (k2 w q)⟩

theorem cons_operatorOrAs (k : Nat) : Cons k operatorOrAs := cons_pmap (cons_alt (cons_tag k _ _) (cons_operator k))

theorem operatorOrAs_blocked {t u : Str} {e : Expr} (h : operatorOrAs t = .ok e u) : Blocked t := by
  cases t with
  | nil => rw [err_nil cons_operatorOrAs] at h; cases h
  | cons c t =>
    by_cases hc : OpChar c
    · exact .inr (.inl ⟨c, t, rfl, hc⟩)
    · by_cases ha : c = 'a'
      · subst ha
        obtain ⟨o, -, e, ho⟩ := operatorOrAs_sound h
        rcases ho with rfl | ho
        · simp only [List.cons_append, List.cons.injEq] at e
          exact .inr (.inr ⟨u, by simp [e.2]⟩)
        · obtain ⟨x, o, rfl⟩ : ∃ x o', o = x :: o' := by
            cases o with
            | nil => exact absurd rfl ho.1
            | cons x o => exact ⟨x, o, rfl⟩
          simp only [List.cons_append, List.cons.injEq] at e
          exact absurd (e.1 ▸ ho.2.1 x (by simp)) hc
      · rw [operatorOrAs_err_head hc ha] at h; cases h

/-- The operator and right operand, if any. -/
theorem counted_tail (hn : Shorter s.length) (hs : Straight s) {q : Str} (hq : q <:+ s) (hl : q.length < s.length) :
    Counted q.length Dead (opt (binaryTail expression ind) q) := by
  have h : Counted q.length Dead (binaryTail expression ind q) ∧ (0 < calls (binaryTail expression ind q) → Dead q) := by
    have stop : ∀ {x : Res (Expr × Expr) × List Event}, None x → Counted q.length Dead x ∧ (0 < calls x → Dead q) := fun h =>
      ⟨⟨by rw [h.1]; exact Nat.zero_le _, fun v r e => absurd e (h.2 v r)⟩, fun k => by rw [h.1] at k; omega⟩
    unfold binaryTail
    rcases ok_or (gap ind .GTE q, ([] : List Event)) with ⟨i, t, e1⟩ | e
    · rw [bind_ok_eq e1]
      rcases ok_or (operatorOrAs t, ([] : List Event)) with ⟨o, t2, e2⟩ | e
      · rw [bind_ok_eq e2]
        have hd := dead_of_gap e1 (operatorOrAs_blocked e2)
        rcases ok_or (multispace t2, ([] : List Event)) with ⟨w, u, e3⟩ | e
        · rw [bind_ok_eq e3]
          have h1 := lt_of_ok (fun k => cons_gap k ind .GTE) e1
          have h1' := suffix_of_ok (fun k => (cons_gap k ind .GTE).good) e1
          have h2 := lt_of_ok cons_operatorOrAs e2
          have h2' := suffix_of_ok (fun k => (cons_operatorOrAs k).good) e2
          have h3' := suffix_of_ok (fun k => (cons_multispace k).good) e3
          have h4 := h3'.trans (h2'.trans (h1'.trans hq))
          have h5 := h3'.length_le
          have k := once_bind (f := fun e => (pure (o, e) : TP (Expr × Expr))) (hn ind u (by omega) (hs.suffix h4))
            (fun v r _ => once_pure _ _) fun v r _ h => quiet_pure _ _ h
          refine ⟨⟨by have := k.1; omega, fun v r e => ?_⟩, fun _ => hd⟩
          rcases k.2 v r e with k | k
          · exact .inl (by omega)
          · exact .inr k
        · exact stop (stopped e)
      · exact stop (stopped e)
    · exact stop (stopped e)
  obtain ⟨h1, h2⟩ := h
  unfold opt alt
  have hp := counted_pure some h1
  have hc := calls_pmap (binaryTail expression ind) some q
  have hp : Counted q.length Dead (pmap (binaryTail expression ind) some q) := hp
  cases e : pmap (binaryTail expression ind) some q with
  | mk x n =>
    rw [e] at hp hc
    cases x with
    | ok _ _ => exact hp
    | panic => exact hp
    | div => exact hp
    | err =>
      have en : ∀ y : Res (Option (Expr × Expr)), calls (y, n ++ []) = calls (binaryTail expression ind q) := fun y => by
        rw [List.append_nil]; exact hc
      simp only
      refine ⟨by show calls (_, n ++ []) ≤ _; rw [en]; exact h1.1, fun v r e => ?_⟩
      cases e
      by_cases h0 : 0 < calls (binaryTail expression ind q)
      · exact .inr (h2 h0)
      · refine .inl ?_
        show calls (_, n ++ []) + _ ≤ _
        rw [en]; omega

/-- No operator follows a failed argument. -/
theorem tail_deadArg {q : Str} (h : DeadArg q) : None (binaryTail expression ind q) := by
  unfold binaryTail
  rcases ok_or (gap ind .GTE q, ([] : List Event)) with ⟨i, t, e1⟩ | e
  · rw [bind_ok_eq e1]
    refine stopped fun o t2 e2 => ?_
    obtain ⟨u, rfl | rfl⟩ := deadArg_gap h e1
    · rw [operatorOrAs_err_head (by decide) (by decide)] at e2; cases e2
    · rw [operatorOrAs_err_head (by decide) (by decide)] at e2; cases e2
  · exact stopped e

/-- Something that may have given up, and what may follow. -/
theorem once_two {p : TP α} {q : TP β} {D : Str → Prop} (f : α → β → γ) {s : Str} (hd : ∀ r, D r → Dead r)
    (h : calls (p s) ≤ s.length ∧ ∀ v r, (p s).1 = .ok v r → calls (p s) + 1 + r.length ≤ s.length ∨ D r)
    (h1 : ∀ v r, (p s).1 = .ok v r → Counted r.length Dead (q r))
    (h2 : ∀ v r, (p s).1 = .ok v r → D r → calls (q r) = 0 ∧ ∀ w t, (q r).1 = .ok w t → t = r) :
    Once 1 s ((p >>= fun a => q >>= fun b => pure (f a b)) s) := by
  show Once 1 s (andThen (p s) fun a => q >>= fun b => pure (f a b))
  rcases ok_or (p s) with ⟨v, r, e⟩ | e
  · have ec := calls_andThen_ok (f := fun a => q >>= fun b => (pure (f a b) : TP γ)) e
    have ef := andThen_fst (f := fun a => q >>= fun b => (pure (f a b) : TP γ)) e
    rcases h.2 v r e with k | k
    · have k1 := counted_pure (f v) (h1 v r e)
      refine ⟨by rw [ec]; have := k1.1; omega, fun w t eq => ?_⟩
      rw [ef] at eq
      rcases k1.2 w t eq with k | k
      · exact .inl (by rw [ec]; omega)
      · exact .inr k
    · obtain ⟨k1, k2⟩ := h2 v r e k
      have k3 : calls ((q >>= fun b => (pure (f v b) : TP γ)) r) = calls (q r) := calls_bind_free fun _ _ => rfl
      refine ⟨by rw [ec, k3, k1]; have := h.1; omega, fun w t eq => ?_⟩
      rw [ef] at eq
      rcases ok_or (q r) with ⟨v', r', e'⟩ | e'
      · have eq : (andThen (q r) fun b => (pure (f v b) : TP γ)).1 = .ok w t := eq
        rw [andThen_fst e'] at eq
        cases eq
        rw [k2 v' t e']
        exact .inr (hd r k)
      · exact absurd eq ((calls_andThen_ne e').2 w t)
  · obtain ⟨ec, ef⟩ := calls_andThen_ne (f := fun a => q >>= fun b => (pure (f a b) : TP γ)) e
    exact ⟨by rw [ec]; have := h.1; omega, fun w r eq => absurd eq (ef w r)⟩

theorem once_binary (hn : Shorter s.length) (hs : Straight s) : Once 1 s (binary expression ind s) := by
  unfold binary
  refine once_two _ (fun r h => DeadArg.dead h) (once_app hn hs) (fun a q e => ?_) fun a q e hd => ?_
  · obtain ⟨hq, hl⟩ := er_suffix (er_applicationOrVar er_expression ind) (fun k => cons_applicationOrVarE k ind) s a q e
    exact counted_tail hn hs hq hl
  · obtain ⟨k1, k2⟩ := tail_deadArg (ind := ind) hd
    refine ⟨calls_alt_zero (by rw [calls_pmap]; exact k1) rfl, fun v r e => ?_⟩
    unfold opt alt at e
    split at e
    · cases e; rfl
    · exfalso
      have e : (andThen (binaryTail expression ind q) fun v => (pure (some v) : TP _)).1 = .ok v r := e
      rcases ok_or (binaryTail expression ind q) with ⟨v', r', e'⟩ | e'
      · exact k2 v' r' e'
      · exact (calls_andThen_ne e').2 v r e

/-- What follows a failed expression in `if`. -/
theorem stop_tag {c : Char} {k : Str} (hc : c = 't' ∨ c = 'e') {r : Str} (h : Dead r) {f : Str → TP α} :
    calls ((free (gap ind .GTE) >>= fun _ => free (tag (c :: k)) >>= f) r) = 0 ∧
      ∀ w q, ((free (gap ind .GTE) >>= fun _ => free (tag (c :: k)) >>= f) r).1 = .ok w q → Dead q := by
  have : None ((free (gap ind .GTE) >>= fun _ => free (tag (c :: k)) >>= f) r) := stops fun v t e => stopped fun w q e' => by
    rw [blocked_tag (dead_gap h e) hc] at e'; cases e'
  exact ⟨this.1, fun w q e => absurd e (this.2 w q)⟩

theorem once_if (hn : Shorter s.length) (hs : Straight s) : Once 1 s (ifExpression expression ind s) := by
  unfold ifExpression
  refine once_free (b := 0) (by omega) fun v r1 e => ?_
  have l1 := lt_of_ok (fun k => cons_tag k _ _) e
  have s1 := suffix_of_ok (fun k => (cons_tag k _ _).good) e
  refine ⟨by omega, once_free (b := 0) (Nat.zero_le _) fun v r2 e => ?_⟩
  have l2 := lt_of_ok (fun k => cons_gap k ind .GTE) e
  have s2 := (suffix_of_ok (fun k => (cons_gap k ind .GTE).good) e).trans s1
  refine ⟨by omega, once_bind (hn ind r2 (by omega) (hs.suffix s2)) (fun v r3 e => ?_) fun v r3 e h => stop_tag (.inl rfl) h⟩
  obtain ⟨s3, l3⟩ := er_suffix (er_expression ind) (fun k => cons_expression k ind) _ _ _ e
  replace s3 := s3.trans s2
  refine once_free (b := 0) (Nat.zero_le _) fun v r4 e => ?_
  have l4 := lt_of_ok (fun k => cons_gap k ind .GTE) e
  have s4 := (suffix_of_ok (fun k => (cons_gap k ind .GTE).good) e).trans s3
  refine ⟨by omega, once_free (b := 0) (Nat.zero_le _) fun v r5 e => ?_⟩
  have l5 := lt_of_ok (fun k => cons_tag k _ _) e
  have s5 := (suffix_of_ok (fun k => (cons_tag k _ _).good) e).trans s4
  refine ⟨by omega, once_free (b := 0) (Nat.zero_le _) fun i r6 e => ?_⟩
  have l6 := lt_of_ok (fun k => cons_gap k ind .GTE) e
  have s6 := (suffix_of_ok (fun k => (cons_gap k ind .GTE).good) e).trans s5
  refine ⟨by omega, once_bind (hn i r6 (by omega) (hs.suffix s6)) (fun v r7 e => ?_) fun v r7 e h => stop_tag (.inr rfl) h⟩
  obtain ⟨s7, l7⟩ := er_suffix (er_expression i) (fun k => cons_expression k i) _ _ _ e
  replace s7 := s7.trans s6
  refine once_free (b := 0) (Nat.zero_le _) fun v r8 e => ?_
  have l8 := lt_of_ok (fun k => cons_gap k ind .GTE) e
  have s8 := (suffix_of_ok (fun k => (cons_gap k ind .GTE).good) e).trans s7
  refine ⟨by omega, once_free (b := 0) (Nat.zero_le _) fun v r9 e => ?_⟩
  have l9 := lt_of_ok (fun k => cons_tag k _ _) e
  have s9 := (suffix_of_ok (fun k => (cons_tag k _ _).good) e).trans s8
  refine ⟨by omega, once_free (b := 0) (Nat.zero_le _) fun j r10 e => ?_⟩
  have l10 := lt_of_ok (fun k => cons_gap k ind .GTE) e
  have s10 := (suffix_of_ok (fun k => (cons_gap k ind .GTE).good) e).trans s9
  exact ⟨by omega, once_bind (hn j r10 (by omega) (hs.suffix s10)) (fun v r _ => once_pure _ _) fun v r _ h => quiet_pure _ _ h⟩

/-- Blanks and a bracket: spaces, and then something that is no gap. -/
theorem blanks_open {x u : Str} (hx : ∀ c ∈ x, c = ' ' ∨ c = '\t') (hu : Opens u) :
    ∃ n c z, x ++ u = sp n ++ c :: z ∧ (c = '\t' ∨ c = '[' ∨ c = '{') := by
  induction x with
  | nil =>
    obtain ⟨z, rfl | rfl⟩ := hu
    · exact ⟨0, '[', z, rfl, .inr (.inl rfl)⟩
    · exact ⟨0, '{', z, rfl, .inr (.inr rfl)⟩
  | cons d x ih =>
    rcases hx d (by simp) with rfl | rfl
    · obtain ⟨n, c, z, e, hc⟩ := ih fun c hc => hx c (by simp [hc])
      exact ⟨n + 1, c, z, by rw [List.cons_append, e]; rfl, hc⟩
    · exact ⟨0, '\t', x ++ u, rfl, .inl rfl⟩

theorem space1_open {t u x : Str} (h : space1 t = .ok x u) (hu : Opens u) {i : Nat} {r : Str} (hg : gap ind .GTE t = .ok i r) :
    tag c!"->" r = .err := by
  obtain ⟨rfl, ⟨-, hx⟩, -⟩ := space1_iff.1 h
  obtain ⟨n, c, z, e, hc⟩ := blanks_open hx hu
  rw [e] at hg
  have hN : NoGap (c :: z) := noGap_of_ne (by rcases hc with rfl | rfl | rfl <;> decide)
  cases n with
  | zero =>
    have hg : gap ind .GTE (c :: z) = .ok i r := hg
    rw [gap_none hN] at hg; cases hg
  | succ n =>
    have hG : Gap (sp (n + 1) ++ c :: z) [] ⟨n + 1, none⟩ (c :: z) :=
      ⟨by simp [gapText, Line.text, commentText], by simp [gapText, Spec.Line.text, commentText, sp], by simp, by simp [Spec.Line.ok], .inl ⟨rfl, hN⟩⟩
    obtain ⟨rfl, -⟩ := (gap_of_gap hG ind .GTE).1 hg
    exact tag_cons_ne (by rcases hc with rfl | rfl | rfl <;> decide)

theorem once_args {D : Str → Prop} {sep : Parser β} (hsep : ∀ k, Cons k sep) (hn : Shorter s.length) (hs : Straight s)
    (hD : ∀ t u x, sep t = .ok x u → Opens u → D t) :
    calls (sepNonemptyList (free sep) (termF expression ind) s) ≤ s.length ∧
    ∀ v r, (sepNonemptyList (free sep) (termF expression ind) s).1 = .ok v r →
      calls (sepNonemptyList (free sep) (termF expression ind) s) + 1 + r.length ≤ s.length ∨ D r := by
  have h := clean_term (ind := ind) hn hs
  unfold sepNonemptyList
  rcases ok_or (termF expression ind s) with ⟨v, r, e⟩ | e
  · obtain ⟨hr, hl⟩ := st_term ind s v r e
    have k := counted_pure (fun vs => v :: vs) (counted_sepLoop (items_terms (ind := ind) hsep hn hs hD hr hl)
      (r.length + 1) r (List.suffix_refl r))
    have k0 := h.2 v r e
    have ec := calls_andThen_ok (f := fun v r => if r.length = s.length then (.err, []) else
      (do let vs ← sepLoop (free sep) (termF expression ind) (r.length + 1); pure (v :: vs) : TP (List Expr)) r) e
    have ef := andThen_fst (f := fun v r => if r.length = s.length then (.err, []) else
      (do let vs ← sepLoop (free sep) (termF expression ind) (r.length + 1); pure (v :: vs) : TP (List Expr)) r) e
    rw [if_neg (by omega)] at ec ef
    refine ⟨by rw [ec]; have := k.1; omega, fun w q eq => ?_⟩
    rw [ef] at eq
    rcases k.2 w q eq with k | k
    · exact .inl (by rw [ec]; omega)
    · exact .inr k
  · obtain ⟨ec, ef⟩ := calls_andThen_ne (f := fun v r => if r.length = s.length then (.err, []) else
      (do let vs ← sepLoop (free sep) (termF expression ind) (r.length + 1); pure (v :: vs) : TP (List Expr)) r) e
    exact ⟨by rw [ec]; have := h.1; omega, fun w q eq => absurd eq (ef w q)⟩

theorem once_stop {p : TP α} {f : α → TP β} {D : Str → Prop} {s : Str}
    (h : calls (p s) ≤ s.length ∧ ∀ v r, (p s).1 = .ok v r → calls (p s) + 1 + r.length ≤ s.length ∨ D r)
    (h1 : ∀ v r, (p s).1 = .ok v r → Once 0 r (f v r)) (h2 : ∀ v r, (p s).1 = .ok v r → D r → None (f v r)) :
    Once 1 s ((p >>= f) s) := by
  show Once 1 s (andThen (p s) f)
  rcases ok_or (p s) with ⟨v, r, e⟩ | e
  · have ec := calls_andThen_ok (f := f) e
    have ef := andThen_fst (f := f) e
    rcases h.2 v r e with hc | hd
    · obtain ⟨k1, k2⟩ := h1 v r e
      refine ⟨by omega, fun w q eq => ?_⟩
      rw [ef] at eq
      rcases k2 w q eq with k | k
      · exact .inl (by omega)
      · exact .inr k
    · obtain ⟨k1, k2⟩ := h2 v r e hd
      have := h.1
      refine ⟨by omega, fun w q eq => ?_⟩
      rw [ef] at eq
      exact absurd eq (k2 w q)
  · obtain ⟨ec, ef⟩ := calls_andThen_ne (f := f) e
    exact ⟨by rw [ec]; have := h.1; omega, fun w q eq => absurd eq (ef w q)⟩

theorem once_lambda (hn : Shorter s.length) (hs : Straight s) : Once 1 s (lambda expression ind s) := by
  unfold lambda
  refine once_free (b := 1) (by omega) fun v r1 e => ?_
  have l1 := lt_of_ok (fun k => cons_char k _) e
  have s1 := suffix_of_ok (fun k => (cons_char k _).good) e
  have hn1 : Shorter r1.length := fun i t ht hs => hn i t (by omega) hs
  refine ⟨by omega, once_stop (D := fun r => ∀ i t, gap ind .GTE r = .ok i t → tag c!"->" t = .err)
    (once_args cons_space1 hn1 (hs.suffix s1) fun t u x e hu i r hg => space1_open e hu hg) (fun v r2 e => ?_) fun v r2 e h => ?_⟩
  · obtain ⟨s2, l2⟩ := er_suffix (er_sepNonemptyList (er_free space1) (er_termF er_expression ind))
      (fun k => cons_sepNonemptyList (cons_space1 k).good (cons_termE k ind).good) _ _ _ e
    replace s2 := s2.trans s1
    refine once_free (b := 0) (Nat.zero_le _) fun v r4 e => ?_
    have l4 := lt_of_ok (fun k => cons_gap k ind .GTE) e
    have s4 := (suffix_of_ok (fun k => (cons_gap k ind .GTE).good) e).trans s2
    refine ⟨by omega, once_free (b := 0) (Nat.zero_le _) fun v r5 e => ?_⟩
    have l5 := lt_of_ok (fun k => cons_tag k _ _) e
    have s5 := (suffix_of_ok (fun k => (cons_tag k _ _).good) e).trans s4
    refine ⟨by omega, once_free (b := 0) (Nat.zero_le _) fun i r6 e => ?_⟩
    have l6 := lt_of_ok (fun k => cons_gap k ind .GTE) e
    have s6 := (suffix_of_ok (fun k => (cons_gap k ind .GTE).good) e).trans s5
    exact ⟨by omega, once_bind (hn i r6 (by omega) (hs.suffix s6)) (fun v r _ => once_pure _ _) fun v r _ h => quiet_pure _ _ h⟩
  · refine stops fun i t e => stopped fun w q e' => ?_
    rw [h i t e] at e'; cases e'

theorem once_alt {a : Nat} {p q : TP α} {s : Str} (hp : Once a s (p s)) (hq : Once a s (q s))
    (h : (p s).1 = .err → 0 < calls (p s) → None (q s)) : Once a s ((p </> q) s) := by
  unfold alt
  cases e : p s with
  | mk x n =>
    rw [e] at hp h
    cases x with
    | ok v r => exact hp
    | panic => exact hp
    | div => exact hp
    | err =>
      have ec : calls ((q s).1, n ++ (q s).2) = calls ((.err : Res α), n) + calls (q s) := List.countP_append
      simp only
      by_cases h0 : calls ((.err : Res α), n) = 0
      · refine ⟨by rw [ec, h0, Nat.zero_add]; exact hq.1, fun v r eq => ?_⟩
        rw [ec, h0, Nat.zero_add]
        exact hq.2 v r eq
      · obtain ⟨k1, k2⟩ := h rfl (Nat.pos_of_ne_zero h0)
        exact ⟨by rw [ec, k1]; exact hp.1, fun v r eq => absurd eq (k2 v r)⟩

theorem none_bind {p : Parser α} {f : α → TP β} {s : Str} (h : p s = .err) : None ((free p >>= f) s) := none_err (quiet_bind h)

theorem None.once {x : Res α × List Event} (h : None x) (s : Str) : Once 1 s x :=
  ⟨by rw [h.1]; omega, fun v r e => absurd e (h.2 v r)⟩

theorem once_expressionF (hn : Shorter s.length) (hs : Straight s) : Once 1 s (expressionF expression ind s) := by
  have hl : None (letExpression expression ind s) := none_bind (tag_infix hs.let_)
  have hc : None (caseExpression expression ind s) := none_bind (tag_infix hs.case)
  unfold expressionF
  refine once_alt (once_binary hn hs) (once_alt (hl.once s) (once_alt (hc.once s) (once_alt (once_if hn hs) (once_lambda hn hs)
    fun _ h => ?_) fun _ h => ?_) fun _ h => ?_) fun e h => ?_
  · cases s with
    | nil => exact none_bind rfl
    | cons c s =>
      refine none_bind ?_
      by_cases hi : c = 'i'
      · subst hi; rfl
      · have : None (ifExpression expression ind (c :: s)) := none_bind (tag_cons_ne hi)
        rw [this.1] at h; omega
  · rw [hc.1] at h; omega
  · rw [hl.1] at h; omega
  · rw [binary_err e] at h
    have ho := term_opens hs h
    have h' : char '\\' s = .err ∧ tag c!"if" s = .err := by
      obtain ⟨u, rfl | rfl⟩ := ho <;> exact ⟨rfl, rfl⟩
    exact none_alt hl (none_alt hc (none_alt (none_bind h'.2) (none_bind h'.1)))

end

theorem shorter_all (n : Nat) : Shorter n := by
  induction n with
  | zero => intro ind t h; omega
  | succ n ih =>
    intro ind t h hs
    have k := once_expressionF (ind := ind) (fun i u hu => ih i u (by omega)) hs
    rw [expression_unfold]
    have ec := calls_mark (expressionF expression ind) t
    refine ⟨by rw [ec]; have := k.1; omega, fun v r e => ?_⟩
    rw [ec]
    exact (k.2 v r e).imp (by omega) id

/-- An expression without parentheses, `let` and `case` is read in linear time. -/
theorem calls_straight (ind : Nat) {s : Str} (hs : Straight s) : calls (expression ind s) ≤ s.length + 1 :=
  (shorter_all (s.length + 1) ind s (Nat.lt_succ_self _) hs).1

end Trace
end ElmParser
