import Verif.Proofs.Offside
import Verif.Proofs.Trace

/-! The simulations of `Shield.lean` and `Offside.lean` once more, for parsers with events: the events do not depend on what
comes after a closing bracket, nor on lines that are indented less. -/
namespace ElmParser
namespace Trace
namespace Two
open Spec
set_option linter.unusedSectionVars false

@[inherit_doc] local infixr:20 " </> " => alt
variable {α β γ δ : Type}

/-! ### A simulation between runs on related texts -/

/-- Which texts are the same, and which equally long, is respected. -/
structure Fits (T : Str → Str → Prop) : Prop where
  eq : ∀ {s s' t t'}, T s s' → T t t' → (s = t ↔ s' = t')
  length : ∀ {s s' t t'}, T s s' → T t t' → (s.length = t.length ↔ s'.length = t'.length)

/-- The two runs agree: both fail, or both succeed with the same value and with related texts, and the events are the same. -/
inductive Sm (T : Str → Str → Prop) : Res α × List Event → Res α × List Event → Prop
  | ok {v t t' es} : T t t' → Sm T (.ok v t, es) (.ok v t', es)
  | err {es} : Sm T (.err, es) (.err, es)
  | undefL {x es y} : Undef x → Sm T (x, es) y
  | undefR {x y es} : Undef y → Sm T x (y, es)

/-- On related texts the parsers agree. -/
def S (T : Str → Str → Prop) (p q : TP α) : Prop := ∀ s s', T s s' → Sm T (p s) (q s')

variable {T : Str → Str → Prop}

theorem undef_andThen' {x : Res α} {es : List Event} {f : α → TP β} (h : Undef x) : ∃ y, Undef y ∧ andThen (x, es) f = (y, es) := by
  rcases h with rfl | rfl
  · exact ⟨_, .inl rfl, rfl⟩
  · exact ⟨_, .inr rfl, rfl⟩

theorem Sm.more {x y : Res α × List Event} (h : Sm T x y) (es : List Event) : Sm T (x.1, es ++ x.2) (y.1, es ++ y.2) := by
  cases h with
  | ok h => exact .ok h
  | err => exact .err
  | undefL h => exact .undefL h
  | undefR h => exact .undefR h

theorem sm_andThen {x y : Res α × List Event} {f g : α → TP β} (h : Sm T x y)
    (hf : ∀ v s s', T s s' → Sm T (f v s) (g v s')) : Sm T (andThen x f) (andThen y g) := by
  cases h with
  | @ok v t t' es h => exact (hf v t t' h).more es
  | err => exact .err
  | undefL h => obtain ⟨z, hz, e⟩ := undef_andThen' h; rw [e]; exact .undefL hz
  | undefR h => obtain ⟨z, hz, e⟩ := undef_andThen' h; rw [e]; exact .undefR hz

theorem s_pure (v : α) : S T (pure v) (pure v) := fun _ _ h => .ok h
theorem s_fail : S T (free (Parser.fail : Parser α)) (free Parser.fail) := fun _ _ _ => .err
theorem s_bind {p q : TP α} {f g : α → TP β} (hp : S T p q) (hf : ∀ v, S T (f v) (g v)) : S T (p >>= f) (q >>= g) :=
  fun s s' h => sm_andThen (hp s s' h) fun v => hf v

theorem s_alt {p q p' q' : TP α} (hp : S T p p') (hq : S T q q') : S T (p </> q) (p' </> q') := fun s s' h => by
  have h1 := hp s s' h
  unfold alt
  revert h1
  generalize p s = y, p' s' = y'
  intro h1
  cases h1 with
  | ok h => exact .ok h
  | err => exact (hq s s' h).more _
  | undefL h => rcases h with rfl | rfl <;> exact .undefL (by simp [Undef])
  | undefR h => rcases h with rfl | rfl <;> exact .undefR (by simp [Undef])

theorem s_pmap {p q : TP α} (f : α → β) (h : S T p q) : S T (pmap p f) (pmap q f) := s_bind h fun v => s_pure (f v)
theorem s_opt {p q : TP α} (h : S T p q) : S T (opt p) (opt q) := s_alt (s_pmap some h) (s_pure none)
theorem s_preceded {p p' : TP α} {q q' : TP β} (hp : S T p p') (hq : S T q q') : S T (preceded p q) (preceded p' q') :=
  s_bind hp fun _ => hq
theorem s_terminated {p p' : TP α} {q q' : TP β} (hp : S T p p') (hq : S T q q') :
    S T (terminated p q) (terminated p' q') := s_bind hp fun _ => s_bind hq fun _ => s_pure _
theorem s_delimited {p p' : TP α} {q q' : TP β} {t t' : TP γ} (hp : S T p p') (hq : S T q q') (ht : S T t t') :
    S T (delimited p q t) (delimited p' q' t') := s_bind hp fun _ => s_terminated hq ht
theorem s_mark {p q : TP α} (e : Event) (h : S T p q) : S T (mark e p) (mark e q) := fun s s' hs => (h s s' hs).more [e]
theorem s_index (v : List α) (i : Nat) : S T (free (index v i)) (free (index v i)) := fun s s' h => by
  unfold free index
  cases v[i]? with
  | some a => exact .ok h
  | none => exact .undefL (.inr rfl)

theorem s_cons {p q : TP (List α)} (h : S T p q) (v : α) : S T (do let vs ← p; pure (v :: vs)) (do let vs ← q; pure (v :: vs)) :=
  s_bind h fun _ => s_pure _

section
variable (F : Fits T)
include F

theorem s_many0Loop {p q : TP α} (hp : S T p q) (k m : Nat) : S T (many0Loop p k) (many0Loop q m) := by
  induction k generalizing m with
  | zero => exact fun _ _ _ => .undefL (.inl rfl)
  | succ k ih =>
    cases m with
    | zero => exact fun _ _ _ => .undefR (.inl rfl)
    | succ m =>
    intro s s' hs
    simp only [many0Loop]
    have h := hp s s' hs
    revert h
    generalize p s = y, q s' = y'
    intro h
    cases h with
    | @ok v t t' es ht =>
      dsimp only
      simp only [F.eq ht hs]
      split
      · exact .ok hs
      · exact sm_andThen (.ok ht) fun v s s' h => s_cons (ih m) v s s' h
    | err => exact .ok hs
    | undefL h => rcases h with rfl | rfl <;> exact .undefL (by simp [Undef])
    | undefR h => rcases h with rfl | rfl <;> exact .undefR (by simp [Undef])

theorem s_many0 {p q : TP α} (hp : S T p q) : S T (many0 p) (many0 q) := fun s s' h => s_many0Loop F hp _ _ s s' h

theorem s_sepLoop {sep sep' : TP β} {p q : TP α} (hsep : S T sep sep') (hp : S T p q) (k m : Nat) :
    S T (sepLoop sep p k) (sepLoop sep' q m) := by
  induction k generalizing m with
  | zero => exact fun _ _ _ => .undefL (.inl rfl)
  | succ k ih =>
    cases m with
    | zero => exact fun _ _ _ => .undefR (.inl rfl)
    | succ m =>
    intro s s' hs
    simp only [sepLoop]
    have h := hsep s s' hs
    revert h
    generalize sep s = y, sep' s' = y'
    intro h
    cases h with
    | @ok v t t' es ht =>
      dsimp only
      simp only [F.length ht hs]
      split
      · exact .ok hs
      · have h := hp t t' ht
        revert h
        generalize p t = y, q t' = y'
        intro h
        cases h with
        | @ok v w w' es' hw =>
          dsimp only
          simp only [F.length hw ht]
          split
          · exact .ok hs
          · exact sm_andThen (.ok hw) fun v s s' h => s_cons (ih m) v s s' h
        | err => exact .ok hs
        | undefL h => rcases h with rfl | rfl <;> exact .undefL (by simp [Undef])
        | undefR h => rcases h with rfl | rfl <;> exact .undefR (by simp [Undef])
    | err => exact .ok hs
    | undefL h => rcases h with rfl | rfl <;> exact .undefL (by simp [Undef])
    | undefR h => rcases h with rfl | rfl <;> exact .undefR (by simp [Undef])

theorem s_sepNonemptyList {sep sep' : TP β} {p q : TP α} (hsep : S T sep sep') (hp : S T p q) :
    S T (sepNonemptyList sep p) (sepNonemptyList sep' q) := fun s s' hs => by
  unfold sepNonemptyList
  refine sm_andThen (hp s s' hs) fun v t t' ht => ?_
  simp only [F.length ht hs]
  split
  · exact .err
  · exact s_cons (s_sepLoop F hsep hp _ _) v t t' ht

theorem s_sepList {sep sep' : TP β} {p q : TP α} (hsep : S T sep sep') (hp : S T p q) :
    S T (sepList sep p) (sepList sep' q) := fun s s' hs => by
  unfold sepList
  have h := hp s s' hs
  revert h
  generalize p s = y, q s' = y'
  intro h
  cases h with
  | @ok v t t' es ht =>
    dsimp only
    simp only [F.length ht hs]
    split
    · exact .err
    · exact sm_andThen (.ok ht) fun v s s' h => s_cons (s_sepLoop F hsep hp _ _) v s s' h
  | err => exact .ok hs
  | undefL h => rcases h with rfl | rfl <;> exact .undefL (by simp [Undef])
  | undefR h => rcases h with rfl | rfl <;> exact .undefR (by simp [Undef])
end

/-! ### Sequences -/

theorem bind_assoc' {p : TP α} {f : α → TP β} {g : β → TP γ} : p >>= f >>= g = p >>= fun v => f v >>= g := by
  funext s
  show andThen (andThen (p s) f) g = andThen (p s) fun v => f v >>= g
  obtain ⟨x, es⟩ := p s
  cases x with
  | ok v r =>
    show andThen ((f v r).1, es ++ (f v r).2) g = ((andThen (f v r) g).1, es ++ (andThen (f v r) g).2)
    obtain ⟨y, es'⟩ := f v r
    cases y <;> simp [andThen]
  | err => rfl
  | panic => rfl
  | div => rfl

theorem pure_bind' {v : α} {f : α → TP β} : (pure v : TP α) >>= f = f v := by
  funext s
  show ((f v s).1, [] ++ (f v s).2) = f v s
  rfl

theorem free_bind (p : Parser α) (q : α → Parser β) : (free p >>= fun v => free (q v)) = free (p >>= q) := by
  funext s
  show andThen (p s, []) (fun v => free (q v)) = ((p s).andThen q, [])
  cases p s <;> rfl

theorem wide_eq {a b : TP α} {p : TP β} {o c : TP γ} : delimited (preceded o a) p (terminated b c) =
    o >>= fun _ => a >>= fun _ => p >>= fun v => b >>= fun _ => c >>= fun _ => pure v := by
  unfold delimited preceded terminated
  simp only [bind_assoc', pure_bind']

/-! ### The two simulations -/

/-- Texts that agree up to a closing bracket. -/
def Closed (x : Char) (r r' : Str) (s s' : Str) : Prop := ∃ u, Shut u ∧ s = u ++ x :: r ∧ s' = u ++ x :: r'

/-- Texts that agree up to a line end. -/
def Lined (b b' : Str) (s s' : Str) : Prop := ∃ u, Of.W u ∧ s = u ++ b ∧ s' = u ++ b'

theorem fits_closed {x : Char} {r r' : Str} : Fits (Closed x r r') where
  eq := by
    rintro _ _ _ _ ⟨u, -, rfl, rfl⟩ ⟨w, -, rfl, rfl⟩; exact Sh.rest_eq r r'
  length := by
    rintro _ _ _ _ ⟨u, -, rfl, rfl⟩ ⟨w, -, rfl, rfl⟩; exact Sh.rest_length r r'
theorem fits_lined {b b' : Str} : Fits (Lined b b') where
  eq := by
    rintro _ _ _ _ ⟨u, -, rfl, rfl⟩ ⟨w, -, rfl, rfl⟩; exact Of.rest_eq b b'
  length := by
    rintro _ _ _ _ ⟨u, -, rfl, rfl⟩ ⟨w, -, rfl, rfl⟩; exact Of.rest_length b b'

/-- The parsers agree on texts that are related in all ways of a certain kind. -/
def A (P : (Str → Str → Prop) → Prop) (p q : TP α) : Prop := ∀ T, P T → S T p q

/-- Before every closing bracket. -/
inductive ClT : (Str → Str → Prop) → Prop
  | mk {x r r'} : Close x → ClT (Closed x r r')
/-- Before all lines that are indented by less than `n`. -/
inductive LnT (n : Nat) : (Str → Str → Prop) → Prop
  | mk {b b'} : Of.Bs n b b' → LnT n (Lined b b')

/-- Kinds of relations. -/
class Kind (P : (Str → Str → Prop) → Prop) : Prop where
  fits : ∀ {T}, P T → Fits T
instance : Kind ClT := ⟨fun h => by cases h; exact fits_closed⟩
instance {n : Nat} : Kind (LnT n) := ⟨fun h => by cases h; exact fits_lined⟩

theorem cl_free {p q : Parser α} (h : Sh.S p q) : A ClT (free p) (free q) := by
  rintro _ (@⟨x, r, r', hx⟩) _ _ ⟨u, hu, rfl, rfl⟩
  have h := h u x r r' hu hx
  unfold free
  revert h
  generalize p _ = y, q _ = y'
  intro h
  cases h with
  | ok hu => exact .ok ⟨_, hu, rfl, rfl⟩
  | err => exact .err
  | undefL h => exact .undefL h
  | undefR h => exact .undefR h

theorem ln_free {n : Nat} {p q : Parser α} (h : Of.S n p q) : A (LnT n) (free p) (free q) := by
  rintro _ ⟨hb⟩ _ _ ⟨u, hu, rfl, rfl⟩
  have h := h u _ _ hu hb
  unfold free
  revert h
  generalize p _ = y, q _ = y'
  intro h
  cases h with
  | ok hu => exact .ok ⟨_, hu, rfl, rfl⟩
  | err => exact .err
  | undefL h => exact .undefL h
  | undefR h => exact .undefR h

section
variable {P : (Str → Str → Prop) → Prop}

theorem a_pure (v : α) : A P (pure v) (pure v) := fun _ _ => s_pure v
theorem a_fail : A P (free (Parser.fail : Parser α)) (free Parser.fail) := fun _ _ => s_fail
theorem a_index (v : List α) (i : Nat) : A P (free (index v i)) (free (index v i)) := fun _ _ => s_index v i
theorem a_bind {p q : TP α} {f g : α → TP β} (hp : A P p q) (hf : ∀ v, A P (f v) (g v)) : A P (p >>= f) (q >>= g) :=
  fun T hT => s_bind (hp T hT) fun v => hf v T hT
theorem a_alt {p q p' q' : TP α} (hp : A P p p') (hq : A P q q') : A P (p </> q) (p' </> q') := fun T hT => s_alt (hp T hT) (hq T hT)
theorem a_pmap {p q : TP α} {f : α → β} (h : A P p q) : A P (pmap p f) (pmap q f) := fun T hT => s_pmap f (h T hT)
theorem a_opt {p q : TP α} (h : A P p q) : A P (opt p) (opt q) := fun T hT => s_opt (h T hT)
theorem a_preceded {p p' : TP α} {q q' : TP β} (hp : A P p p') (hq : A P q q') : A P (preceded p q) (preceded p' q') :=
  fun T hT => s_preceded (hp T hT) (hq T hT)
theorem a_terminated {p p' : TP α} {q q' : TP β} (hp : A P p p') (hq : A P q q') : A P (terminated p q) (terminated p' q') :=
  fun T hT => s_terminated (hp T hT) (hq T hT)
theorem a_delimited {p p' : TP α} {q q' : TP β} {t t' : TP γ} (hp : A P p p') (hq : A P q q') (ht : A P t t') :
    A P (delimited p q t) (delimited p' q' t') := fun T hT => s_delimited (hp T hT) (hq T hT) (ht T hT)
theorem a_separatedPair {p p' : TP α} {q q' : TP β} {t t' : TP γ} (hp : A P p p') (hq : A P q q') (ht : A P t t') :
    A P (separatedPair p q t) (separatedPair p' q' t') := a_bind hp fun _ => a_bind hq fun _ => a_bind ht fun _ => a_pure _
theorem a_mark {p q : TP α} (e : Event) (h : A P p q) : A P (mark e p) (mark e q) := fun T hT => s_mark e (h T hT)
variable [Kind P]
theorem a_many0 {p q : TP α} (hp : A P p q) : A P (many0 p) (many0 q) := fun T hT => s_many0 (Kind.fits hT) (hp T hT)
theorem a_sepNonemptyList {sep sep' : TP β} {p q : TP α} (hsep : A P sep sep') (hp : A P p q) :
    A P (sepNonemptyList sep p) (sepNonemptyList sep' q) := fun T hT => s_sepNonemptyList (Kind.fits hT) (hsep T hT) (hp T hT)
theorem a_sepList {sep sep' : TP β} {p q : TP α} (hsep : A P sep sep') (hp : A P p q) :
    A P (sepList sep p) (sepList sep' q) := fun T hT => s_sepList (Kind.fits hT) (hsep T hT) (hp T hT)
end

/-! ### Brackets -/

/-- The parsers end by closing the bracket, if they succeed. -/
def C (p q : TP α) : Prop := ∀ u x r r', Shut u → Close x →
  (∃ v es, p (u ++ x :: r) = (.ok v r, es) ∧ q (u ++ x :: r') = (.ok v r', es)) ∨
  (∃ es, p (u ++ x :: r) = (.err, es) ∧ q (u ++ x :: r') = (.err, es)) ∨
  Undef (p (u ++ x :: r)).1 ∨ Undef (q (u ++ x :: r')).1

theorem c_bind {p q : TP α} {f g : α → TP β} (hp : A ClT p q) (hf : ∀ v, C (f v) (g v)) : C (p >>= f) (q >>= g) :=
  fun u x r r' hu hx => by
  have h := hp (Closed x r r') (.mk hx) _ _ ⟨u, hu, rfl, rfl⟩
  show (∃ v es, andThen _ f = _ ∧ andThen _ g = _) ∨ (∃ es, andThen _ f = _ ∧ andThen _ g = _) ∨ Undef (andThen _ f).1 ∨
    Undef (andThen _ g).1
  revert h
  generalize p _ = a, q _ = b
  intro h
  cases h with
  | @ok v t t' es h =>
    obtain ⟨w, hw, rfl, rfl⟩ := h
    rcases hf v w x r r' hw hx with ⟨v, es', e1, e2⟩ | ⟨es', e1, e2⟩ | e | e
    · exact .inl ⟨v, es ++ es', by simp only [andThen, e1], by simp only [andThen, e2]⟩
    · exact .inr (.inl ⟨es ++ es', by simp only [andThen, e1], by simp only [andThen, e2]⟩)
    · exact .inr (.inr (.inl e))
    · exact .inr (.inr (.inr e))
  | @err es => exact .inr (.inl ⟨es, rfl, rfl⟩)
  | undefL h => obtain ⟨z, hz, e⟩ := undef_andThen' h; exact .inr (.inr (.inl (by rw [e]; exact hz)))
  | undefR h => obtain ⟨z, hz, e⟩ := undef_andThen' h; exact .inr (.inr (.inr (by rw [e]; exact hz)))

theorem c_free {c : Char} {p q : Parser α} (h : Sh.C c p q) : C (free p) (free q) := fun u x r r' hu hx => by
  unfold free
  rcases h u x r r' hu hx with ⟨-, v, e1, e2⟩ | ⟨e1, e2⟩ | e | e
  · exact .inl ⟨v, [], by rw [e1], by rw [e2]⟩
  · exact .inr (.inl ⟨[], by rw [e1], by rw [e2]⟩)
  · exact .inr (.inr (.inl e))
  · exact .inr (.inr (.inr e))

theorem c_close {c : Char} (hc : Close c) (v : α) : C (free (char c) >>= fun _ => pure v) (free (char c) >>= fun _ => pure v) := by
  have e : (free (char c) >>= fun _ => pure v) = free (char c >>= fun _ => pure v) := free_bind (char c) fun _ => Parser.pure v
  rw [e]
  exact c_free (Sh.c_close hc v)

theorem char_bind (o : Char) (p : TP α) (u : Str) : (free (char o) >>= fun _ => p) (o :: u) = p u := by
  show andThen (char o (o :: u), []) _ = _
  rw [char_cons]
  rfl
theorem char_bind_err {o : Char} {s : Str} (p : TP α) (h : char o s = .err) : (free (char o) >>= fun _ => p) s = (.err, []) := by
  show andThen (char o s, []) _ = _
  rw [h]
  rfl

/-- Brackets are treated alike. -/
class Brackets (P : (Str → Str → Prop) → Prop) : Prop extends Kind P where
  op : ∀ {α : Type} {o : Char}, Bracket o → ¬ Close o → ∀ {p q : TP α}, C p q → A P (free (char o) >>= fun _ => p) (free (char o) >>= fun _ => q)

instance : Brackets ClT where
  op {α o} ho hn {p q} h := by
    rintro _ ⟨hx⟩ _ _ ⟨u, hu, rfl, rfl⟩
    cases u with
    | nil =>
      have e : _ ≠ o := fun e => hn (e ▸ hx)
      simp only [List.nil_append]
      rw [char_bind_err p (char_cons_ne _ e), char_bind_err q (char_cons_ne _ e)]
      exact .err
    | cons d u =>
      by_cases e : d = o
      · subst e
        obtain ⟨y, a, t, h1, rfl, h2, h3⟩ := Sh.opened hu ho
        simp only [List.cons_append, List.append_assoc]
        rw [char_bind, char_bind]
        rcases h a y (t ++ _ :: _) (t ++ _ :: _) h2 (Sh.partners_close h1) with ⟨v, es, e1, e2⟩ | ⟨es, e1, e2⟩ | e | e
        · rw [e1, e2]; exact .ok ⟨t, h3, rfl, rfl⟩
        · rw [e1, e2]; exact .err
        · exact .undefL e
        · exact .undefR e
      · simp only [List.cons_append]
        rw [char_bind_err p (char_cons_ne _ e), char_bind_err q (char_cons_ne _ e)]
        exact .err

instance {n : Nat} : Brackets (LnT n) where
  op {α o} ho hn {p q} h := by
    rintro _ ⟨hb⟩ _ _ ⟨u, hu, rfl, rfl⟩
    cases u with
    | nil =>
      have e : o ≠ '\n' := by rintro rfl; exact absurd ho (by decide)
      simp only [List.nil_append]
      rw [char_bind_err p (Of.char_edge (Of.edge hb.1) e), char_bind_err q (Of.char_edge (Of.edge hb.2) e)]
      exact .err
    | cons d u =>
      by_cases e : d = o
      · subst e
        obtain ⟨y, a, t, h1, rfl, h2, h3⟩ := Sh.opened hu.1 ho
        simp only [List.cons_append, List.append_assoc]
        rw [char_bind, char_bind]
        rcases h a y (t ++ _) (t ++ _) h2 (Sh.partners_close h1) with ⟨v, es, e1, e2⟩ | ⟨es, e1, e2⟩ | e | e
        · rw [e1, e2]; exact .ok ⟨t, Of.W.drop (c := d :: (a ++ [y])) (by simpa using hu) h3, rfl, rfl⟩
        · rw [e1, e2]; exact .err
        · exact .undefL e
        · exact .undefR e
      · simp only [List.cons_append]
        rw [char_bind_err p (char_cons_ne _ e), char_bind_err q (char_cons_ne _ e)]
        exact .err

section
variable {P : (Str → Str → Prop) → Prop} [Brackets P]
theorem a_between {o c : Char} (ho : Bracket o) (hn : ¬ Close o) (hc : Close c) {p q : TP α} (h : A ClT p q) :
    A P (delimited (free (char o)) p (free (char c))) (delimited (free (char o)) q (free (char c))) :=
  Brackets.op ho hn (c_bind h fun v => c_close hc v)
theorem a_wide {o c : Char} (ho : Bracket o) (hn : ¬ Close o) (hc : Close c) {a b : TP α} (ha : A ClT a a) (hb : A ClT b b)
    {p q : TP β} (h : A ClT p q) : A P (delimited (preceded (free (char o)) a) p (terminated b (free (char c))))
      (delimited (preceded (free (char o)) a) q (terminated b (free (char c)))) := by
  rw [wide_eq, wide_eq]
  exact Brackets.op ho hn (c_bind ha fun _ => c_bind h fun v => c_bind hb fun _ => c_close hc v)
end

/-! ### Characters -/

theorem character_events {w : Str} {c : Char} (h : CharText w c) :
    ∃ es, ∀ z, character ('\'' :: (w ++ '\'' :: z)) = (.ok (.Character c) z, es) := by
  have key : ∃ es, ∀ z, (character ('\'' :: (w ++ '\'' :: z))).2 = es := by
    rcases h with rfl | ⟨a, b, v, rfl, h, -⟩
    · refine ⟨[], fun z => ?_⟩
      have hh : hexChar (c :: '\'' :: z) = (.err, []) := by
        have : tag c!"\\x" (c :: '\'' :: z) = .err := by
          by_cases e : c = '\\'
          · subst e; rfl
          · simp [tag, stripPrefix]
        show andThen (ElmParser.preceded (tag c!"\\x") _ _, []) _ = _
        rw [preceded_apply, this]
        rfl
      show (andThen (andThen (Res.ok '\'' (c :: '\'' :: z), []) fun _ => _) _).2 = _
      simp only [andThen, List.nil_append]
      show (andThen (andThen (alt hexChar (free anychar) (c :: '\'' :: z)) _) _).2 = _
      unfold alt
      rw [hh]
      rfl
    · have ht : ∀ z, ElmParser.preceded (tag c!"\\x") (ElmParser.pmap (take 2) fromHex) ('\\' :: 'x' :: a :: b :: '\'' :: z) =
          .ok (fromHex [a, b]) ('\'' :: z) := fun z => by
        have : ¬ z.length + 1 + 1 + 1 < 2 := by omega
        simp [preceded_apply, tag, stripPrefix, pmap_apply, take, this]
      cases e : fromHex [a, b] with
      | some v =>
        refine ⟨[.hex (some v)], fun z => ?_⟩
        have hh : hexChar ('\\' :: 'x' :: a :: b :: '\'' :: z) = (.ok (Char.ofNat v) ('\'' :: z), [.hex (some v)]) := by
          unfold hexChar
          show TP.bind (free _) _ _ = _
          unfold TP.bind free
          rw [ht, e]
          rfl
        show (andThen (andThen (Res.ok '\'' ('\\' :: 'x' :: a :: b :: '\'' :: z), []) fun _ => _) _).2 = _
        simp only [andThen, List.nil_append]
        show (andThen (andThen (alt hexChar (free anychar) ('\\' :: 'x' :: a :: b :: '\'' :: z)) _) _).2 = _
        unfold alt
        rw [hh]
        rfl
      | none =>
        refine ⟨[.hex none], fun z => ?_⟩
        have hh : hexChar ('\\' :: 'x' :: a :: b :: '\'' :: z) = (.err, [.hex none]) := by
          unfold hexChar
          show TP.bind (free _) _ _ = _
          unfold TP.bind free
          rw [ht, e]
          rfl
        show (andThen (andThen (Res.ok '\'' ('\\' :: 'x' :: a :: b :: '\'' :: z), []) fun _ => _) _).2 = _
        simp only [andThen, List.nil_append]
        show (andThen (andThen (alt hexChar (free anychar) ('\\' :: 'x' :: a :: b :: '\'' :: z)) _) _).2 = _
        unfold alt
        rw [hh]
        rfl
  obtain ⟨es, he⟩ := key
  refine ⟨es, fun z => ?_⟩
  have h1 := er_character ('\'' :: (w ++ '\'' :: z))
  rw [show ElmParser.character ('\'' :: (w ++ '\'' :: z)) = .ok (.Character c) z from character_iff.2 ⟨w, c, rfl, rfl, h⟩] at h1
  rw [← h1, ← he z]

theorem character_none {s : Str} (h : char '\'' s = .err) : character s = (.err, []) := by
  show andThen ((free (char '\'') >>= fun _ => _) s) _ = _
  rw [char_bind_err _ h]
  rfl

theorem cl_character : A ClT character character := by
  rintro _ ⟨hx⟩ _ _ ⟨u, hu, rfl, rfl⟩
  cases u with
  | nil =>
    have h := Sh.close_ne hx (P := (· = '\'')) (by decide)
    simp only [List.nil_append]
    rw [character_none (char_cons_ne _ h), character_none (char_cons_ne _ h)]
    exact .err
  | cons c u =>
    by_cases e : c = '\''
    · subst e
      obtain ⟨w, c, t, rfl, h1, h2⟩ := Sh.apostrophe hu
      obtain ⟨es, he⟩ := character_events h1
      simp only [List.cons_append, List.append_assoc]
      rw [he, he]
      exact .ok ⟨t, h2, rfl, rfl⟩
    · simp only [List.cons_append]
      rw [character_none (char_cons_ne _ e), character_none (char_cons_ne _ e)]
      exact .err

theorem ln_character {n : Nat} : A (LnT n) character character := by
  rintro _ ⟨hb⟩ _ _ ⟨u, hu, rfl, rfl⟩
  cases u with
  | nil =>
    simp only [List.nil_append]
    rw [character_none (Of.char_edge (Of.edge hb.1) (by decide)), character_none (Of.char_edge (Of.edge hb.2) (by decide))]
    exact .err
  | cons c u =>
    by_cases e : c = '\''
    · subst e
      obtain ⟨w, c, t, rfl, h1, h2⟩ := Sh.apostrophe hu.1
      obtain ⟨es, he⟩ := character_events h1
      simp only [List.cons_append, List.append_assoc]
      rw [he, he]
      exact .ok ⟨t, Of.W.drop (c := '\'' :: (w ++ ['\''])) (by simpa using hu) h2, rfl, rfl⟩
    · simp only [List.cons_append]
      rw [character_none (char_cons_ne _ e), character_none (char_cons_ne _ e)]
      exact .err

/-! ### Types -/

/-- The recursive calls agree. -/
structure TyOk (rc rc' : TyTRec) : Prop where
  ty : ∀ ind, A ClT (rc.type_ ind) (rc'.type_ ind)
  ann : ∀ ind, A ClT (rc.typeAnnotation ind) (rc'.typeAnnotation ind)

theorem cl_optGap (ind : Nat) : A ClT (opt (free (gap ind .GTE))) (opt (free (gap ind .GTE))) := a_opt (cl_free (Sh.s_gap ind _))
theorem cl_gap (ind : Nat) (ir : IR) : A ClT (free (gap ind ir)) (free (gap ind ir)) := cl_free (Sh.s_gap ind ir)
theorem cl_char {c : Char} (hc : Sh.Soft c) : A ClT (free (char c)) (free (char c)) := cl_free (Sh.s_char hc)
theorem cl_loName : A ClT (free loName) (free loName) := cl_free Sh.s_loName
theorem cl_commaSep (ind : Nat) : A ClT (free (commaSep ind)) (free (commaSep ind)) := cl_free (Sh.s_commaSep ind)
theorem cl_multispace0 : A ClT (free multispace0) (free multispace0) := cl_free Sh.s_multispace0
theorem cl_optGap' (ind : Nat) : A ClT (free (optGap ind .GTE)) (free (optGap ind .GTE)) := cl_free (Sh.s_optGap ind _)

section
variable {rc rc' : TyTRec} (h : TyOk rc rc') (ind : Nat) {P : (Str → Str → Prop) → Prop} [Brackets P]
include h

theorem a_typeTuple : A P (typeTuple rc ind) (typeTuple rc' ind) :=
  a_pmap (a_wide (by decide) (by decide) (by decide) (cl_optGap ind) (cl_optGap ind)
    (a_sepList (cl_commaSep ind) (h.ty ind)))
theorem cl_typeRecordPairs : A ClT (typeRecordPairs rc ind) (typeRecordPairs rc' ind) :=
  a_sepList (cl_commaSep ind) <|
    a_bind cl_loName fun _ => a_bind (cl_optGap ind) fun _ => a_bind (cl_char (by decide)) fun _ =>
    a_bind (cl_optGap ind) fun _ => a_bind (h.ann ind) fun _ => a_pure _
theorem a_typeRecordConstructor : A P (typeRecordConstructor rc ind) (typeRecordConstructor rc' ind) :=
  a_between (by decide) (by decide) (by decide) <|
    a_bind (cl_gap ind _) fun _ => a_bind (cl_free Sh.s_typeVariable) fun _ => a_bind (cl_gap ind _) fun _ =>
    a_bind (cl_char (by decide)) fun _ => a_bind (cl_gap ind _) fun _ => a_bind (cl_typeRecordPairs h ind) fun _ =>
    a_bind (cl_gap ind _) fun _ => a_pure _
theorem a_typeRecord : A P (typeRecord rc ind) (typeRecord rc' ind) :=
  a_wide (by decide) (by decide) (by decide) (cl_optGap ind) (cl_optGap ind) (a_pmap (cl_typeRecordPairs h ind))
theorem a_typeParens : A P (typeParens rc ind) (typeParens rc' ind) :=
  a_wide (by decide) (by decide) (by decide) (cl_optGap ind) (cl_optGap ind) (h.ann ind)

theorem a_typeParameter (h1 : A P (free typeVariable) (free typeVariable)) (h2 : A P (free typeConstant) (free typeConstant)) :
    A P (typeParameter rc ind) (typeParameter rc' ind) :=
  a_alt h1 <| a_alt h2 <| a_alt (a_typeRecordConstructor h ind) <|
  a_alt (a_typeRecord h ind) <| a_alt (a_typeTuple h ind) (a_typeParens h ind)

theorem a_typeF (h1 : A P (free typeVariable) (free typeVariable)) (h2 : A P (free (ElmParser.sepNonemptyList (char '.') upName)) (free (ElmParser.sepNonemptyList (char '.') upName)))
    (h3 : A P (typeArg rc ind) (typeArg rc' ind)) : A P (typeF rc ind) (typeF rc' ind) :=
  a_mark _ <| a_alt (a_bind h2 fun _ => a_bind (a_many0 h3) fun _ => a_pure _) <| a_alt h1 <|
  a_alt (a_typeRecordConstructor h ind) <| a_alt (a_typeRecord h ind) <| a_alt (a_typeTuple h ind) (a_typeParens h ind)

theorem a_typeAnnotationF (h0 : A P (free arrowSep) (free arrowSep)) (h1 : A P (typeF rc ind) (typeF rc' ind)) :
    A P (typeAnnotationF rc ind) (typeAnnotationF rc' ind) :=
  a_bind (a_sepNonemptyList h0 h1) fun v => by
    split
    · exact a_fail
    · split
      · exact a_index _ _
      · split
        · exact a_pure _
        · exact a_fail
end

section
variable {rc rc' : TyTRec} (h : TyOk rc rc')
include h
theorem cl_typeF (ind : Nat) : A ClT (typeF rc ind) (typeF rc' ind) :=
  a_typeF h ind (cl_free Sh.s_typeVariable) (cl_free Sh.s_dotted) <|
    a_bind (cl_gap ind _) fun j => a_typeParameter h j (cl_free Sh.s_typeVariable) (cl_free (Sh.s_pmap _ Sh.s_dotted))
theorem cl_typeAnnotationF (ind : Nat) : A ClT (typeAnnotationF rc ind) (typeAnnotationF rc' ind) :=
  a_typeAnnotationF h ind (cl_free (Sh.s_delimited Sh.s_sn Sh.s_arrow Sh.s_sn)) (cl_typeF h ind)

theorem ln_typeArg {n ind : Nat} (hi : n ≤ ind + 1) : A (LnT n) (typeArg rc ind) (typeArg rc' ind) := by
  rintro _ hT _ _ hs
  have hT' := hT
  obtain ⟨hb⟩ := hT'
  obtain ⟨u, hu, rfl, rfl⟩ := hs
  show Sm _ (andThen (gap ind .GT _, []) _) (andThen (gap ind .GT _, []) _)
  by_cases hne : u = []
  · subst hne
    rw [List.nil_append, List.nil_append, Of.gap_edge' hb.1 (.inr ⟨rfl, hi⟩), Of.gap_edge' hb.2 (.inr ⟨rfl, hi⟩)]
    exact .err
  · rcases Of.gap_inside hu hne (Of.edge hb.1) (Of.edge hb.2) ind .GT with ⟨e, e'⟩ | ⟨j, _, w, -, -, -, -, hw, -, e, e'⟩
    · rw [e, e']; exact .err
    · rw [e, e']
      exact sm_andThen (.ok ⟨w, hw, rfl, rfl⟩) fun j s s' hs =>
        a_typeParameter h j (ln_free Of.s_typeVariable) (ln_free (Of.s_pmap _ Of.s_dotted)) _ hT s s' hs
theorem ln_typeF {n ind : Nat} (hi : n ≤ ind + 1) : A (LnT n) (typeF rc ind) (typeF rc' ind) :=
  a_typeF h ind (ln_free Of.s_typeVariable) (ln_free Of.s_dotted) (ln_typeArg h hi)
theorem ln_typeAnnotationF {n ind : Nat} (hi : n ≤ ind + 1) : A (LnT n) (typeAnnotationF rc ind) (typeAnnotationF rc' ind) :=
  a_typeAnnotationF h ind (ln_free Of.s_arrowSep) (ln_typeF h hi)
end

theorem tyOk_tyN (n m : Nat) : TyOk (tyN n) (tyN m) := by
  induction n generalizing m with
  | zero => exact ⟨fun _ _ _ _ _ _ => .undefL (.inl rfl), fun _ _ _ _ _ _ => .undefL (.inl rfl)⟩
  | succ n ih =>
    cases m with
    | zero => exact ⟨fun _ _ _ _ _ _ => .undefR (.inl rfl), fun _ _ _ _ _ _ => .undefR (.inl rfl)⟩
    | succ m => exact ⟨fun ind => cl_typeF (ih m) ind, fun ind => cl_typeAnnotationF (ih m) ind⟩

theorem ln_tyN {n ind : Nat} (hi : n ≤ ind + 1) (k m : Nat) :
    A (LnT n) ((tyN k).typeAnnotation ind) ((tyN m).typeAnnotation ind) := by
  cases k with
  | zero => exact fun _ _ _ _ _ => .undefL (.inl rfl)
  | succ k =>
    cases m with
    | zero => exact fun _ _ _ _ _ => .undefR (.inl rfl)
    | succ m => exact ln_typeAnnotationF (tyOk_tyN k m) hi

theorem cl_typeAnnotation (ind : Nat) : A ClT (typeAnnotation ind) (typeAnnotation ind) := fun T hT s s' hs => by
  have h := (tyOk_tyN (s.length + 1) (s'.length + 1)).ann ind T hT s s' hs
  rw [typeAnnotation, tyRec]
  exact h
theorem ln_typeAnnotation {n ind : Nat} (hi : n ≤ ind + 1) : A (LnT n) (typeAnnotation ind) (typeAnnotation ind) := fun T hT s s' hs => by
  have h := ln_tyN hi (s.length + 1) (s'.length + 1) T hT s s' hs
  rw [typeAnnotation, tyRec]
  exact h

/-! ### Expressions -/

/-- The recursive calls agree. -/
def ExOk (rc rc' : TRec) : Prop := ∀ ind, A ClT (rc ind) (rc' ind)

section
variable {rc rc' : TRec} (h : ExOk rc rc') (ind : Nat) {P : (Str → Str → Prop) → Prop} [Brackets P]
include h

theorem a_tuple : A P (tuple rc ind) (tuple rc' ind) :=
  a_pmap (a_between (by decide) (by decide) (by decide)
    (a_sepList (cl_char (by decide)) (a_delimited cl_multispace0 (h ind) cl_multispace0)))
theorem a_list : A P (list rc ind) (list rc' ind) :=
  a_pmap (a_wide (by decide) (by decide) (by decide) (cl_optGap ind) (cl_optGap ind)
    (a_opt (a_sepList (cl_commaSep ind) (h ind))))
theorem a_record : A P (record rc ind) (record rc' ind) :=
  a_pmap (a_wide (by decide) (by decide) (by decide) (cl_optGap ind) (cl_optGap ind)
    (a_sepList (cl_commaSep ind) (a_separatedPair cl_loName
      (a_delimited (cl_optGap ind) (cl_char (by decide)) (cl_optGap ind)) (h ind))))
theorem a_recordUpdate : A P (recordUpdate rc ind) (recordUpdate rc' ind) :=
  a_wide (by decide) (by decide) (by decide) (cl_optGap' ind) (cl_gap ind _) <|
    a_bind cl_loName fun _ => a_bind (cl_optGap' ind) fun _ => a_bind (cl_char (by decide)) fun _ =>
    a_bind cl_multispace0 fun _ => a_bind (a_sepList
      (a_delimited (cl_optGap' ind) (cl_char (by decide)) (cl_optGap' ind))
      (a_bind cl_loName fun _ => a_bind cl_multispace0 fun _ => a_bind (cl_char (by decide)) fun _ =>
        a_bind cl_multispace0 fun _ => a_bind (h ind) fun _ => a_pure _)) fun _ => a_pure _
theorem a_parens : A P (parens rc ind) (parens rc' ind) := a_between (by decide) (by decide) (by decide) (h ind)

/-- The words and literals. -/
structure Words (P : (Str → Str → Prop) → Prop) : Prop where
  access : A P (free access) (free access)
  variableP : A P (free variableP) (free variableP)
  accessFunction : A P (free accessFunction) (free accessFunction)
  string : A P (free string) (free string)
  float : A P (free float) (free float)
  integer : A P (free integer) (free integer)
  character : A P character character
  simplifiedRecord : A P (free simplifiedRecord) (free simplifiedRecord)
  loName : A P (free functionNameOrOp) (free functionNameOrOp)
  spaces : A P (free spaces) (free spaces)
  space1 : A P (free space1) (free space1)
  arrow : A P (free (tag c!"->")) (free (tag c!"->"))
  tag : ∀ k ∈ [c!"let", c!"in", c!"case", c!"of", c!"if", c!"then", c!"else"], A P (free (tag k)) (free (tag k))
  char : ∀ c ∈ [':', '=', '\\'], A P (free (char c)) (free (char c))

theorem a_termF (w : Words P) : A P (termF rc ind) (termF rc' ind) :=
  a_alt w.access <| a_alt w.variableP <| a_alt w.accessFunction <| a_alt w.string <| a_alt w.float <| a_alt w.integer <|
  a_alt w.character <| a_alt (a_parens h ind) <| a_alt (a_list h ind) <| a_alt (a_tuple h ind) <|
  a_alt (a_recordUpdate h ind) <| a_alt (a_record h ind) w.simplifiedRecord
end

/-- How gaps are treated: those of an indentation for which `I` holds. -/
structure Gaps (P : (Str → Str → Prop) → Prop) (I : Nat → Prop) : Prop where
  gap : ∀ {ind}, I ind → ∀ ir {α} {f g : Nat → TP α}, (∀ j, I j → A P (f j) (g j)) →
    A P (free (gap ind ir) >>= f) (free (gap ind ir) >>= g)
  sep : ∀ {ind}, I ind → ∀ ir, A P (free (ElmParser.gap ind ir)) (free (ElmParser.gap ind ir))
  sameIndent : ∀ {ind}, I ind → A P (free (newLineAndSameIndent ind)) (free (newLineAndSameIndent ind))
  ann : ∀ {ind}, I ind → A P (typeAnnotation ind) (typeAnnotation ind)
  operand : ∀ {ind}, I ind → A P (free (ElmParser.gap ind .GTE >>= fun _ => operatorOrAs >>= fun o => multispace >>= fun _ => pure o))
    (free (ElmParser.gap ind .GTE >>= fun _ => operatorOrAs >>= fun o => multispace >>= fun _ => pure o))

section
variable {rc rc' : TRec} (h : ExOk rc rc') {P : (Str → Str → Prop) → Prop} [Brackets P] (w : Words P) {I : Nat → Prop}
  (G : Gaps P I) (ho : ∀ {ind}, I ind → A P (rc ind) (rc' ind)) {ind : Nat} (hi : I ind)
include h w G ho hi

theorem a_lambda : A P (lambda rc ind) (lambda rc' ind) :=
  a_bind (w.char _ (by decide)) fun _ => a_bind (a_sepNonemptyList w.space1 (a_termF h ind w)) fun _ =>
    G.gap hi _ fun _ _ => a_bind w.arrow fun _ => G.gap hi _ fun j hj => a_bind (ho hj) fun _ => a_pure _

theorem a_applicationOrVar : A P (applicationOrVar rc ind) (applicationOrVar rc' ind) :=
  a_bind (a_sepList (G.sep hi _) (a_termF h ind w)) fun v => by
    split
    · exact a_fail
    · split
      · exact a_index _ _
      · exact a_bind (a_index _ _) fun _ => a_bind (a_index _ _) fun _ => a_pure _

theorem a_functionSignature : A P (functionSignature ind) (functionSignature ind) :=
  a_bind w.loName fun _ => a_bind w.spaces fun _ => a_bind (w.char _ (by decide)) fun _ =>
    G.gap hi _ fun j hj => a_bind (G.ann hj) fun _ => a_pure _

theorem a_functionDefinitionF : A P (functionDefinitionF rc ind) (functionDefinitionF rc' ind) :=
  a_bind w.loName fun _ => a_bind (a_many0 (a_preceded w.spaces (a_termF h ind w))) fun _ =>
    a_bind w.spaces fun _ => a_bind (w.char _ (by decide)) fun _ => G.gap hi _ fun j hj => a_bind (ho hj) fun _ => a_pure _

theorem a_functionF : A P (functionF rc ind) (functionF rc' ind) :=
  a_bind (a_opt (a_terminated (a_functionSignature h w G ho hi) (G.sameIndent hi))) fun _ =>
    a_bind (a_functionDefinitionF h w G ho hi) fun _ => a_pure _

theorem a_letBinding : A P (letBinding rc ind) (letBinding rc' ind) :=
  a_bind (a_alt w.variableP <| a_alt (a_list h ind) <| a_alt (a_tuple h ind) w.simplifiedRecord) fun _ =>
    G.gap hi _ fun _ _ => a_bind (w.char _ (by decide)) fun _ => G.gap hi _ fun j hj => a_bind (ho hj) fun _ => a_pure _

theorem a_letExpression : A P (letExpression rc ind) (letExpression rc' ind) :=
  a_bind (w.tag _ (by decide)) fun _ => G.gap hi _ fun j hj =>
    a_bind (a_sepNonemptyList (G.sep hj _) (a_alt (a_letBinding h w G ho hj) (a_pmap (a_functionF h w G ho hj)))) fun _ =>
    G.gap hi _ fun _ _ => a_bind (w.tag _ (by decide)) fun _ => G.gap hi _ fun _ _ => a_bind (ho hi) fun _ => a_pure _

theorem a_caseExpression : A P (caseExpression rc ind) (caseExpression rc' ind) :=
  a_bind (w.tag _ (by decide)) fun _ => G.gap hi _ fun _ _ => a_bind (ho hi) fun _ => G.gap hi _ fun _ _ =>
    a_bind (w.tag _ (by decide)) fun _ => G.gap hi _ fun j hj =>
    a_bind (a_sepNonemptyList (G.sep hj _) (a_bind (ho hj) fun _ => G.gap hj _ fun _ _ => a_bind w.arrow fun _ =>
      G.gap hj _ fun k hk => a_bind (ho hk) fun _ => a_pure _)) fun _ => a_pure _

theorem a_ifExpression : A P (ifExpression rc ind) (ifExpression rc' ind) :=
  a_bind (w.tag _ (by decide)) fun _ => G.gap hi _ fun _ _ => a_bind (ho hi) fun _ => G.gap hi _ fun _ _ =>
    a_bind (w.tag _ (by decide)) fun _ => G.gap hi _ fun j hj => a_bind (ho hj) fun _ => G.gap hi _ fun _ _ =>
    a_bind (w.tag _ (by decide)) fun _ => G.gap hi _ fun k hk => a_bind (ho hk) fun _ => a_pure _

omit h w G ho hi in
theorem binaryTail_eq (rc : TRec) (ind : Nat) : binaryTail rc ind =
    (free (gap ind .GTE >>= fun _ => operatorOrAs >>= fun o => multispace >>= fun _ => pure o) >>= fun o => do
      let e ← rc ind
      pure (o, e)) := by
  unfold binaryTail
  have e1 := fun o => free_bind multispace fun _ => (pure o : Parser Expr)
  have e2 := free_bind operatorOrAs fun o => multispace >>= fun _ => (pure o : Parser Expr)
  have e3 := free_bind (gap ind .GTE) fun _ => operatorOrAs >>= fun o => multispace >>= fun _ => (pure o : Parser Expr)
  rw [← e3]
  simp only [← e2, ← e1, bind_assoc']
  rfl

theorem a_binary : A P (binary rc ind) (binary rc' ind) :=
  a_bind (a_applicationOrVar h w G ho hi) fun _ => a_bind (a_opt (by
    rw [binaryTail_eq, binaryTail_eq]
    exact a_bind (G.operand hi) fun _ => a_bind (ho hi) fun _ => a_pure _)) fun _ => a_pure _

theorem a_expressionF : A P (expressionF rc ind) (expressionF rc' ind) :=
  a_alt (a_binary h w G ho hi) <| a_alt (a_letExpression h w G ho hi) <| a_alt (a_caseExpression h w G ho hi) <|
  a_alt (a_ifExpression h w G ho hi) (a_lambda h w G ho hi)
end

theorem cl_words : Words ClT where
  access := cl_free Sh.s_access
  variableP := cl_free Sh.s_variableP
  accessFunction := cl_free Sh.s_accessFunction
  string := cl_free Sh.s_string
  float := cl_free Sh.s_float
  integer := cl_free Sh.s_integer
  character := cl_character
  simplifiedRecord := cl_free Sh.s_simplifiedRecord
  loName := cl_free Sh.s_functionNameOrOp
  spaces := cl_free Sh.s_spaces
  space1 := cl_free Sh.s_space1
  arrow := cl_free Sh.s_arrow
  tag k hk := cl_free (Sh.s_tag (by revert k; decide))
  char c hc := cl_free (Sh.s_char (by revert c; decide))

theorem ln_words {n : Nat} : Words (LnT n) where
  access := ln_free Of.s_access
  variableP := ln_free Of.s_variableP
  accessFunction := ln_free Of.s_accessFunction
  string := ln_free Of.s_string
  float := ln_free Of.s_float
  integer := ln_free Of.s_integer
  character := ln_character
  simplifiedRecord := ln_free Of.s_simplifiedRecord
  loName := ln_free Of.s_functionNameOrOp
  spaces := ln_free Of.s_spaces
  space1 := ln_free Of.s_space1
  arrow := ln_free Of.s_arrow
  tag k hk := ln_free (Of.s_tag (by revert k; decide))
  char c hc := ln_free (Of.s_char (by revert c; decide))

theorem cl_gaps : Gaps ClT fun _ => True where
  gap _ ir _ _ _ hf := a_bind (cl_gap _ ir) fun j => hf j trivial
  sep _ ir := cl_gap _ ir
  sameIndent _ := cl_free (Sh.s_sameIndent _)
  ann _ := cl_typeAnnotation _
  operand _ := cl_free (Sh.s_bind (Sh.s_gap _ _) fun _ => Sh.s_bind (Sh.s_pmap _ (Sh.s_alt (Sh.s_tag (by decide)) Sh.s_operator)) fun _ =>
    Sh.s_bind Sh.s_multispace fun _ => Sh.s_pure _)

theorem ln_gaps {n : Nat} : Gaps (LnT n) fun ind => n ≤ ind where
  gap hi ir _ _ _ hf := by
    rintro _ hT _ _ hs
    have hT' := hT
    obtain ⟨hb⟩ := hT'
    obtain ⟨u, hu, rfl, rfl⟩ := hs
    show Sm _ (andThen (gap _ ir _, []) _) (andThen (gap _ ir _, []) _)
    rcases Of.gap_split hu hb hi ir with ⟨e, e'⟩ | ⟨j, _, w, hj, -, -, -, hw, -, e, e'⟩
    · rw [e, e']; exact .err
    · rw [e, e']
      exact (hf j hj _ hT _ _ ⟨w, hw, rfl, rfl⟩).more []
  sep hi ir := ln_free (Of.s_gap hi ir)
  sameIndent hi := ln_free (Of.s_sameIndent hi)
  ann hi := ln_typeAnnotation (Nat.le_succ_of_le hi)
  operand hi := ln_free (Of.s_operand hi fun _ => Of.s_pure _)

theorem exOk_exprN (k m : Nat) : ExOk (exprN k) (exprN m) := by
  induction k generalizing m with
  | zero => exact fun _ _ _ _ _ _ => .undefL (.inl rfl)
  | succ k ih =>
    cases m with
    | zero => exact fun _ _ _ _ _ _ => .undefR (.inl rfl)
    | succ m => exact fun ind => a_mark _ (a_expressionF (ih m) cl_words cl_gaps (fun _ => ih m _) trivial)

theorem ln_exprN {n : Nat} (k m : Nat) {ind : Nat} (hi : n ≤ ind) : A (LnT n) (exprN k ind) (exprN m ind) := by
  induction k generalizing m ind with
  | zero => exact fun _ _ _ _ _ => .undefL (.inl rfl)
  | succ k ih =>
    cases m with
    | zero => exact fun _ _ _ _ _ => .undefR (.inl rfl)
    | succ m => exact a_mark _ (a_expressionF (exOk_exprN k m) ln_words ln_gaps (fun hi => ih m hi) hi)

theorem cl_expression (ind : Nat) : A ClT (expression ind) (expression ind) := fun T hT s s' hs => by
  have h := exOk_exprN (s.length + 1) (s'.length + 1) ind T hT s s' hs
  unfold expression
  exact h
theorem ln_expression {n ind : Nat} (hi : n ≤ ind) : A (LnT n) (expression ind) (expression ind) := fun T hT s s' hs => by
  have h := ln_exprN (s.length + 1) (s'.length + 1) hi T hT s s' hs
  unfold expression
  exact h

/-! ### The events -/

theorem Sm.events {x y : Res α × List Event} (h : Sm T x y) (hx : x.1 ≠ .div ∧ x.1 ≠ .panic) (hy : y.1 ≠ .div ∧ y.1 ≠ .panic) :
    x.2 = y.2 := by
  cases h with
  | ok _ => rfl
  | err => rfl
  | undefL h =>
    rcases h with h | h
    · exact absurd h hx.1
    · exact absurd h hx.2
  | undefR h =>
    rcases h with h | h
    · exact absurd h hy.1
    · exact absurd h hy.2

end Two
end Trace
end ElmParser
