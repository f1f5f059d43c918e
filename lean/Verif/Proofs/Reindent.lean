import Verif.Proofs.Steps
import Verif.Proofs.Lex
import Verif.Proofs.Trail
import Verif.Spec.Exprs
import Verif.Spec.Reindent

/-! A simulation: every parser treats a text and the same text with other indentations alike, as long as the order of
the indentations is the same. -/
namespace ElmParser
open Spec
set_option linter.unusedSectionVars false

namespace Re

variable {α β γ δ : Type} {φ : Nat → Nat}

/-! ### Texts -/

theorem from_cons_none {c : Char} {s : Str} (h : c ≠ '\n') :
    reindent φ (c :: s) = c :: reindent φ s := by
  simp [reindent, reindentFrom, h]

theorem nil : reindent φ [] = [] := rfl

theorem from_spaces (n m : Nat) {r : Str} (h : Next (· ≠ ' ') r) :
    reindentFrom φ (some n) (sp m ++ r) = sp (φ (n + m)) ++ reindent φ r := by
  induction m generalizing n with
  | zero =>
    cases r with
    | nil => simp [sp, reindentFrom, reindent]
    | cons c r =>
      have : c ≠ ' ' := (next_cons (P := (· ≠ ' '))).1 h
      simp [sp, reindentFrom, reindent, this]
  | succ m ih =>
    have : sp (m + 1) ++ r = ' ' :: (sp m ++ r) := rfl
    rw [this, reindentFrom, if_pos rfl, ih]
    congr 3
    omega

theorem newline (m : Nat) {r : Str} (h : Next (· ≠ ' ') r) :
    reindent φ ('\n' :: (sp m ++ r)) = '\n' :: (sp (φ m) ++ reindent φ r) := by
  have := from_spaces (φ := φ) 0 m h
  rw [Nat.zero_add] at this
  rw [← this]
  simp [reindent, reindentFrom]

/-- Every text is empty, starts with another character than a newline, or with a newline and all
the spaces after it. -/
theorem cases (s : Str) : s = [] ∨ (∃ c t, s = c :: t ∧ c ≠ '\n') ∨ ∃ n r, s = '\n' :: (sp n ++ r) ∧ Next (· ≠ ' ') r := by
  cases s with
  | nil => exact .inl rfl
  | cons c t =>
    by_cases h : c = '\n'
    · obtain ⟨n, r, rfl, hr⟩ := split_sp t
      exact .inr (.inr ⟨n, r, by rw [h], hr⟩)
    · exact .inr (.inl ⟨c, t, rfl, h⟩)

/-- Induction along lines. -/
@[elab_as_elim] theorem ind {P : Str → Prop} (h0 : P []) (h1 : ∀ c t, c ≠ '\n' → P t → P (c :: t))
    (h2 : ∀ n r, Next (· ≠ ' ') r → P r → P ('\n' :: (sp n ++ r))) (s : Str) : P s := by
  have : ∀ k (s : Str), s.length ≤ k → P s := by
    intro k
    induction k with
    | zero => intro s hs; rw [List.length_eq_zero_iff.1 (Nat.le_zero.1 hs)]; exact h0
    | succ k ih =>
      intro s hs
      rcases cases s with rfl | ⟨c, t, rfl, h⟩ | ⟨n, r, rfl, h⟩
      · exact h0
      · exact h1 c t h (ih t (by simpa using hs))
      · refine h2 n r h (ih r ?_)
        simp only [List.length_cons, List.length_append] at hs
        omega
  exact this _ s (Nat.le_refl _)

theorem next {P : Char → Prop} (s : Str) : Next P (reindent φ s) ↔ Next P s := by
  rcases cases s with rfl | ⟨c, t, rfl, h⟩ | ⟨n, r, rfl, h⟩
  · exact Iff.rfl
  · rw [from_cons_none h, next_cons, next_cons]
  · rw [newline n h, next_cons, next_cons]

theorem sp_append_inj {a b : Nat} {s t : Str} (hs : Next (· ≠ ' ') s) (ht : Next (· ≠ ' ') t)
    (h : sp a ++ s = sp b ++ t) : a = b ∧ s = t := by
  induction a generalizing b with
  | zero =>
    cases b with
    | zero => exact ⟨rfl, h⟩
    | succ b =>
      rw [show sp 0 ++ s = s from rfl] at h
      rw [h] at hs
      exact absurd rfl ((next_cons (P := (· ≠ ' '))).1 hs)
  | succ a ih =>
    cases b with
    | zero =>
      rw [show sp 0 ++ t = t from rfl] at h
      rw [← h] at ht
      exact absurd rfl ((next_cons (P := (· ≠ ' '))).1 ht)
    | succ b =>
      obtain ⟨h1, h2⟩ := ih (List.cons.inj h).2
      exact ⟨by rw [h1], h2⟩

/-- All lines of the text but the first have an indentation in `I`. -/
def D (I : Nat → Prop) (s : Str) : Prop := ∀ n, Indent s n → I n

theorem D.suffix {I : Nat → Prop} {s t : Str} (h : D I s) (ht : t <:+ s) : D I t := by
  obtain ⟨a, rfl⟩ := ht
  rintro n ⟨b, r, rfl, hr⟩
  exact h n ⟨a ++ b, r, by rw [List.append_assoc], hr⟩
theorem D.head {I : Nat → Prop} {n : Nat} {r : Str} (h : D I ('\n' :: (sp n ++ r))) (hr : Next (· ≠ ' ') r) : I n :=
  h n ⟨[], r, rfl, hr⟩
theorem D.line {I : Nat → Prop} {n : Nat} {r : Str} (h : D I ('\n' :: (sp n ++ r))) : D I r :=
  h.suffix ⟨'\n' :: sp n, rfl⟩
theorem D.tail {I : Nat → Prop} {c : Char} {r : Str} (h : D I (c :: r)) : D I r := h.suffix (List.suffix_cons _ _)

/-- What `φ` is assumed to be for texts with the indentations `I`. -/
structure Ok (φ : Nat → Nat) (I : Nat → Prop) : Prop where
  mono : ∀ {a b}, I a → I b → a < b → φ a < φ b
  mem : I 0
  zero : φ 0 = 0
  small : ∀ {n}, I n → n < 4294967296 ∧ φ n < 4294967296

theorem Ok.lt_iff {I : Nat → Prop} (h : Ok φ I) {a b : Nat} (ha : I a) (hb : I b) : φ a < φ b ↔ a < b := by
  constructor
  · intro h'
    rcases Nat.lt_trichotomy a b with h1 | rfl | h1
    · exact h1
    · omega
    · have := h.mono hb ha h1; omega
  · exact h.mono ha hb
theorem Ok.inj {I : Nat → Prop} (h : Ok φ I) {a b : Nat} (ha : I a) (hb : I b) : φ a = φ b ↔ a = b := by
  constructor
  · intro h'
    rcases Nat.lt_trichotomy a b with h1 | rfl | h1
    · have := h.mono ha hb h1; omega
    · rfl
    · have := h.mono hb ha h1; omega
  · rintro rfl; rfl
theorem Ok.le_iff {I : Nat → Prop} (h : Ok φ I) {a b : Nat} (ha : I a) (hb : I b) : φ a ≤ φ b ↔ a ≤ b := by
  rw [← Nat.not_lt, h.lt_iff hb ha, Nat.not_lt]
theorem Ok.u32 {I : Nat → Prop} {n : Nat} (h : Ok φ I) (hn : I n) : asU32 n = n ∧ asU32 (φ n) = φ n :=
  ⟨Nat.mod_eq_of_lt (h.small hn).1, Nat.mod_eq_of_lt (h.small hn).2⟩

theorem inj {I : Nat → Prop} (h : Ok φ I) {s t : Str} (ds : D I s) (dt : D I t) (e : reindent φ s = reindent φ t) :
    s = t := by
  refine (ind (P := fun s => D I s → ∀ t, D I t → reindent φ s = reindent φ t → s = t) ?_ ?_ ?_ s : _) ds t dt e
  · intro _ t _ e
    rcases cases t with rfl | ⟨c, t, rfl, h⟩ | ⟨n, r, rfl, h⟩
    · rfl
    · rw [from_cons_none h] at e; cases e
    · rw [newline n h] at e; cases e
  · intro c t hc ih ds u du e
    rw [from_cons_none hc] at e
    rcases cases u with rfl | ⟨c', t', rfl, h'⟩ | ⟨n, r, rfl, h'⟩
    · cases e
    · rw [from_cons_none h'] at e
      obtain ⟨rfl, e1⟩ := List.cons.inj e
      rw [ih ds.tail _ du.tail e1]
    · rw [newline n h'] at e
      exact absurd (List.cons.inj e).1 hc
  · intro n r hr ih ds u du e
    rw [newline n hr] at e
    rcases cases u with rfl | ⟨c', t', rfl, h'⟩ | ⟨m, r', rfl, h'⟩
    · cases e
    · rw [from_cons_none h'] at e
      exact absurd (List.cons.inj e).1.symm h'
    · rw [newline m h'] at e
      obtain ⟨e1, e2⟩ := sp_append_inj ((next r).2 hr) ((next r').2 h') (List.cons.inj e).2
      rw [(h.inj (ds.head hr) (du.head h')).1 e1, ih ds.line _ du.line e2]

theorem append_of_no_newline {a b : Str} (h : '\n' ∉ a) : reindent φ (a ++ b) = a ++ reindent φ b := by
  induction a with
  | nil => rfl
  | cons c a ih =>
    simp only [List.mem_cons, not_or] at h
    rw [List.cons_append, from_cons_none (Ne.symm h.1), ih h.2]; rfl

theorem id_of_no_newline {a : Str} (h : '\n' ∉ a) : reindent φ a = a := by
  have := append_of_no_newline (φ := φ) (b := []) h
  simpa [nil] using this

theorem dropWhile_sp {f : Char → Bool} (h : f ' ' = true) (n : Nat) (r : Str) :
    (sp n ++ r).dropWhile f = r.dropWhile f := by
  induction n with
  | zero => rfl
  | succ n ih => show List.dropWhile f (' ' :: (sp n ++ r)) = _; rw [List.dropWhile_cons, if_pos h, ih]
theorem takeWhile_sp {f : Char → Bool} (h : f ' ' = true) (n : Nat) (r : Str) :
    (sp n ++ r).takeWhile f = sp n ++ r.takeWhile f := by
  induction n with
  | zero => rfl
  | succ n ih => show List.takeWhile f (' ' :: (sp n ++ r)) = _; rw [List.takeWhile_cons, if_pos h, ih]; rfl

theorem next_takeWhile {P : Char → Prop} {f : Char → Bool} {r : Str} (h : Next P r) : Next P (r.takeWhile f) := by
  cases r with
  | nil => exact h
  | cons c r =>
    rw [List.takeWhile_cons]
    split
    · exact next_cons.2 (next_cons.1 h)
    · exact next_nil _

theorem takeWhile {f : Char → Bool} (h : f '\n' = true → f ' ' = true) (s : Str) :
    (reindent φ s).takeWhile f = reindent φ (s.takeWhile f) := by
  refine ind rfl ?_ ?_ s
  · intro c t hc ih
    rw [from_cons_none hc, List.takeWhile_cons, List.takeWhile_cons]
    split
    · rw [from_cons_none hc, ih]
    · rfl
  · intro n r hr ih
    rw [newline n hr, List.takeWhile_cons, List.takeWhile_cons]
    split
    · rename_i e
      rw [takeWhile_sp (h e), takeWhile_sp (h e), newline n (next_takeWhile hr), ih]
    · rfl

theorem dropWhile {f : Char → Bool} (h : f '\n' = true → f ' ' = true) (s : Str) :
    (reindent φ s).dropWhile f = reindent φ (s.dropWhile f) := by
  refine ind rfl ?_ ?_ s
  · intro c t hc ih
    rw [from_cons_none hc, List.dropWhile_cons, List.dropWhile_cons]
    split
    · exact ih
    · rw [from_cons_none hc]
  · intro n r hr ih
    rw [newline n hr, List.dropWhile_cons, List.dropWhile_cons]
    split
    · rename_i e
      rw [dropWhile_sp (h e), dropWhile_sp (h e), ih]
    · rw [newline n hr]

theorem suffix_of_no_newline {a b : Str} (h : '\n' ∉ a) : reindent φ b <:+ reindent φ (a ++ b) := by
  rw [append_of_no_newline h]; exact List.suffix_append _ _

/-! ### The simulation -/

/-- The two runs agree: both fail, or both succeed with related values and corresponding rests. -/
def Sm (φ : Nat → Nat) (R : α → β → Prop) (s : Str) (x : Res α) (y : Res β) : Prop :=
  (∃ v v' r, x = .ok v r ∧ y = .ok v' (reindent φ r) ∧ R v v' ∧ r <:+ s ∧ reindent φ r <:+ reindent φ s) ∨
  (x = .err ∧ y = .err) ∨ Undef x ∨ Undef y

/-- The parsers `p` and `p'` agree on texts with indentations in `I`. -/
def S (φ : Nat → Nat) (I : Nat → Prop) (R : α → β → Prop) (p : Parser α) (p' : Parser β) : Prop :=
  ∀ s : Str, D I s → Sm φ R s (p s) (p' (reindent φ s))

/-- The value of the second run is `f` of that of the first. -/
def Fn (f : α → β) : α → β → Prop := fun a b => b = f a
/-- The values do not matter. -/
def Any : α → β → Prop := fun _ _ => True

variable {I : Nat → Prop} {R : α → β → Prop} {Q : γ → δ → Prop}

theorem sm_ok {s r : Str} {v : α} {v' : β} (h : R v v') (h1 : r <:+ s) (h2 : reindent φ r <:+ reindent φ s) :
    Sm φ R s (.ok v r) (.ok v' (reindent φ r)) := .inl ⟨v, v', r, rfl, rfl, h, h1, h2⟩
theorem sm_err {s : Str} : Sm φ R s .err .err := .inr (.inl ⟨rfl, rfl⟩)
theorem sm_undefL {s : Str} {x : Res α} {y : Res β} (h : Undef x) : Sm φ R s x y := .inr (.inr (.inl h))
theorem sm_undefR {s : Str} {x : Res α} {y : Res β} (h : Undef y) : Sm φ R s x y := .inr (.inr (.inr h))

theorem Sm.mono {R' : α → β → Prop} {s t : Str} {x : Res α} {y : Res β} (h : Sm φ R t x y) (hR : ∀ {v v'}, R v v' → R' v v')
    (h1 : t <:+ s) (h2 : reindent φ t <:+ reindent φ s) : Sm φ R' s x y := by
  rcases h with ⟨v, v', r, e, e', h, k1, k2⟩ | h | h | h
  · exact .inl ⟨v, v', r, e, e', hR h, k1.trans h1, k2.trans h2⟩
  · exact .inr (.inl h)
  · exact sm_undefL h
  · exact sm_undefR h

theorem sm_andThen {s : Str} {x : Res α} {y : Res β} {f : α → Str → Res γ} {g : β → Str → Res δ} (h : Sm φ R s x y)
    (hf : ∀ v v' r, R v v' → r <:+ s → Sm φ Q r (f v r) (g v' (reindent φ r))) :
    Sm φ Q s (x.andThen f) (y.andThen g) := by
  rcases h with ⟨v, v', r, rfl, rfl, h, k1, k2⟩ | ⟨rfl, rfl⟩ | h | h
  · exact (hf v v' r h k1).mono id k1 k2
  · exact sm_err
  · exact sm_undefL (undef_andThen h)
  · exact sm_undefR (undef_andThen h)

theorem s_mono {R' : α → β → Prop} {p : Parser α} {p' : Parser β} (h : S φ I R p p') (hR : ∀ {v v'}, R v v' → R' v v') :
    S φ I R' p p' := fun s hs => (h s hs).mono hR (List.suffix_refl _) (List.suffix_refl _)
theorem s_any {p : Parser α} {p' : Parser β} (h : S φ I R p p') : S φ I Any p p' := s_mono h fun _ => trivial

theorem s_pure {v : α} {v' : β} (h : R v v') : S φ I R (pure v) (pure v') :=
  fun _ _ => sm_ok h (List.suffix_refl _) (List.suffix_refl _)
theorem s_fail : S φ I R Parser.fail Parser.fail := fun _ _ => sm_err

theorem s_bind {p : Parser α} {p' : Parser β} {q : α → Parser γ} {q' : β → Parser δ} (hp : S φ I R p p')
    (hq : ∀ v v', R v v' → S φ I Q (q v) (q' v')) : S φ I Q (p >>= q) (p' >>= q') :=
  fun s hs => sm_andThen (hp s hs) fun v v' r h k => hq v v' h r (hs.suffix k)

theorem s_alt {p q : Parser α} {p' q' : Parser β} (hp : S φ I R p p') (hq : S φ I R q q') :
    S φ I R (p </> q) (p' </> q') := fun s hs => by
  simp only [alt_apply]
  rcases hp s hs with ⟨v, v', r, h1, h2, h, k1, k2⟩ | ⟨h1, h2⟩ | h | h
  · rw [h1, h2]; exact sm_ok h k1 k2
  · rw [h1, h2]; exact hq s hs
  · rcases h with h | h <;> rw [h]
    · exact sm_undefL (.inl rfl)
    · exact sm_undefL (.inr rfl)
  · rcases h with h | h <;> rw [h]
    · exact sm_undefR (.inl rfl)
    · exact sm_undefR (.inr rfl)

theorem s_pmap {p : Parser α} {p' : Parser β} {f : α → γ} {g : β → δ} (hp : S φ I R p p')
    (h : ∀ v v', R v v' → Q (f v) (g v')) : S φ I Q (pmap p f) (pmap p' g) :=
  s_bind hp fun v v' k => s_pure (h v v' k)

/-- Both are absent, or present and related. -/
inductive ORel (R : α → β → Prop) : Option α → Option β → Prop
  | none : ORel R none none
  | some {v v'} : R v v' → ORel R (some v) (some v')

theorem s_opt {p : Parser α} {p' : Parser β} (hp : S φ I R p p') : S φ I (ORel R) (opt p) (opt p') :=
  s_alt (s_pmap hp fun _ _ h => .some h) (s_pure .none)
theorem s_mapRes {p : Parser α} {p' : Parser β} {f : α → Option γ} {g : β → Option δ} (hp : S φ I R p p')
    (h : ∀ v v', R v v' → ORel Q (f v) (g v')) : S φ I Q (mapRes p f) (mapRes p' g) :=
  s_bind hp fun v v' k => by
    have h := h v v' k
    revert h
    generalize f v = a, g v' = b
    intro h
    cases h with
    | none => exact s_fail
    | some h => exact s_pure h

theorem s_preceded {p : Parser α} {p' : Parser β} {q : Parser γ} {q' : Parser δ} (hp : S φ I R p p') (hq : S φ I Q q q') :
    S φ I Q (preceded p q) (preceded p' q') := s_bind hp fun _ _ _ => hq
theorem s_terminated {p : Parser α} {p' : Parser β} {q : Parser γ} {q' : Parser δ} (hp : S φ I R p p') (hq : S φ I Q q q') :
    S φ I R (terminated p q) (terminated p' q') := s_bind hp fun _ _ h => s_bind hq fun _ _ _ => s_pure h
theorem s_delimited {ε ζ : Type} {P : ε → ζ → Prop} {p : Parser α} {p' : Parser β} {q : Parser γ} {q' : Parser δ}
    {r : Parser ε} {r' : Parser ζ} (hp : S φ I R p p') (hq : S φ I Q q q') (hr : S φ I P r r') :
    S φ I Q (delimited p q r) (delimited p' q' r') :=
  s_bind hp fun _ _ _ => s_bind hq fun _ _ h => s_bind hr fun _ _ _ => s_pure h

/-- The lists have the same length and related elements. -/
inductive LRel (R : α → β → Prop) : List α → List β → Prop
  | nil : LRel R [] []
  | cons {v v' vs vs'} : R v v' → LRel R vs vs' → LRel R (v :: vs) (v' :: vs')

theorem LRel.fn {f : α → β} {vs : List α} {vs' : List β} (h : LRel (Fn f) vs vs') : vs' = vs.map f := by
  induction h with
  | nil => rfl
  | cons h _ ih => rw [h, ih]; rfl

theorem length_iff (hφ : Ok φ I) {r s : Str} (hs : D I s) (h1 : r <:+ s) (h2 : reindent φ r <:+ reindent φ s) :
    (reindent φ r).length = (reindent φ s).length ↔ r.length = s.length := by
  constructor
  · intro h
    rw [inj hφ (hs.suffix h1) hs (h2.eq_of_length h)]
  · intro h
    rw [h1.eq_of_length h]

theorem s_many0Loop (hφ : Ok φ I) {p : Parser α} {p' : Parser β} (hp : S φ I R p p') (n m : Nat) (s : Str) (hs : D I s) :
    Sm φ (LRel R) s (many0Loop p n s) (many0Loop p' m (reindent φ s)) := by
  induction n generalizing m s with
  | zero => exact sm_undefL (.inl rfl)
  | succ n ih =>
    cases m with
    | zero => exact sm_undefR (.inl rfl)
    | succ m =>
      simp only [many0Loop]
      have done : Sm φ (LRel R) s (.ok [] s) (.ok [] (reindent φ s)) :=
        sm_ok .nil (List.suffix_refl _) (List.suffix_refl _)
      rcases hp s hs with ⟨v, v', r, h1, h2, h, k1, k2⟩ | ⟨h1, h2⟩ | h | h
      · rw [h1, h2]
        simp only
        by_cases e : r = s
        · rw [if_pos e, if_pos (by rw [e])]; exact done
        · rw [if_neg e, if_neg fun e' => e (inj hφ (hs.suffix k1) hs e')]
          refine (sm_andThen (Q := LRel R) (ih m r (hs.suffix k1)) fun vs vs' r' hh _ => ?_).mono id k1 k2
          exact sm_ok (.cons h hh) (List.suffix_refl _) (List.suffix_refl _)
      · rw [h1, h2]; exact done
      · rcases h with h | h <;> rw [h]
        · exact sm_undefL (.inl rfl)
        · exact sm_undefL (.inr rfl)
      · rcases h with h | h <;> rw [h]
        · exact sm_undefR (.inl rfl)
        · exact sm_undefR (.inr rfl)

theorem s_many0 (hφ : Ok φ I) {p : Parser α} {p' : Parser β} (hp : S φ I R p p') : S φ I (LRel R) (many0 p) (many0 p') :=
  fun s hs => s_many0Loop hφ hp _ _ s hs
theorem s_many1 (hφ : Ok φ I) {p : Parser α} {p' : Parser β} (hp : S φ I R p p') : S φ I (LRel R) (many1 p) (many1 p') :=
  s_bind hp fun _ _ h => s_bind (s_many0 hφ hp) fun _ _ hh => s_pure (.cons h hh)

theorem s_sepLoop (hφ : Ok φ I) {sep : Parser α} {sep' : Parser β} {p : Parser γ} {p' : Parser δ} (hsep : S φ I R sep sep')
    (hp : S φ I Q p p') (n m : Nat) (s : Str) (hs : D I s) :
    Sm φ (LRel Q) s (sepLoop sep p n s) (sepLoop sep' p' m (reindent φ s)) := by
  induction n generalizing m s with
  | zero => exact sm_undefL (.inl rfl)
  | succ n ih =>
    cases m with
    | zero => exact sm_undefR (.inl rfl)
    | succ m =>
      simp only [sepLoop]
      have done : Sm φ (LRel Q) s (.ok [] s) (.ok [] (reindent φ s)) :=
        sm_ok .nil (List.suffix_refl _) (List.suffix_refl _)
      rcases hsep s hs with ⟨v, v', r, h1, h2, h, k1, k2⟩ | ⟨h1, h2⟩ | h | h
      · rw [h1, h2]
        simp only [length_iff hφ hs k1 k2]
        split
        · exact done
        · have hr := hs.suffix k1
          rcases hp r hr with ⟨v, v', r', h1, h2, h, l1, l2⟩ | ⟨h1, h2⟩ | h | h
          · rw [h1, h2]
            simp only [length_iff hφ hr l1 l2]
            split
            · exact done
            · refine (sm_andThen (Q := LRel Q) (ih m r' (hr.suffix l1)) fun vs vs' r' hh _ => ?_).mono id
                (l1.trans k1) (l2.trans k2)
              exact sm_ok (.cons h hh) (List.suffix_refl _) (List.suffix_refl _)
          · rw [h1, h2]; exact done
          · rcases h with h | h <;> rw [h]
            · exact sm_undefL (.inl rfl)
            · exact sm_undefL (.inr rfl)
          · rcases h with h | h <;> rw [h]
            · exact sm_undefR (.inl rfl)
            · exact sm_undefR (.inr rfl)
      · rw [h1, h2]; exact done
      · rcases h with h | h <;> rw [h]
        · exact sm_undefL (.inl rfl)
        · exact sm_undefL (.inr rfl)
      · rcases h with h | h <;> rw [h]
        · exact sm_undefR (.inl rfl)
        · exact sm_undefR (.inr rfl)

theorem s_sepNonemptyList (hφ : Ok φ I) {sep : Parser α} {sep' : Parser β} {p : Parser γ} {p' : Parser δ}
    (hsep : S φ I R sep sep') (hp : S φ I Q p p') :
    S φ I (LRel Q) (sepNonemptyList sep p) (sepNonemptyList sep' p') := fun s hs => by
  unfold sepNonemptyList
  rcases hp s hs with ⟨v, v', r, h1, h2, h, k1, k2⟩ | ⟨h1, h2⟩ | h | h
  · rw [h1, h2, andThen_ok, andThen_ok]
    simp only [length_iff hφ hs k1 k2]
    split
    · exact sm_err
    · refine (sm_andThen (Q := LRel Q) (s_sepLoop hφ hsep hp _ _ r (hs.suffix k1))
        fun vs vs' r' hh _ => ?_).mono id k1 k2
      exact sm_ok (.cons h hh) (List.suffix_refl _) (List.suffix_refl _)
  · rw [h1, h2]; exact sm_err
  · exact sm_undefL (undef_andThen h)
  · exact sm_undefR (undef_andThen h)

theorem s_sepList (hφ : Ok φ I) {sep : Parser α} {sep' : Parser β} {p : Parser γ} {p' : Parser δ}
    (hsep : S φ I R sep sep') (hp : S φ I Q p p') :
    S φ I (LRel Q) (sepList sep p) (sepList sep' p') := fun s hs => by
  unfold sepList
  rcases hp s hs with ⟨v, v', r, h1, h2, h, k1, k2⟩ | ⟨h1, h2⟩ | h | h
  · rw [h1, h2]
    simp only [length_iff hφ hs k1 k2]
    split
    · exact sm_err
    · refine (sm_andThen (Q := LRel Q) (s_sepLoop hφ hsep hp _ _ r (hs.suffix k1))
        fun vs vs' r' hh _ => ?_).mono id k1 k2
      exact sm_ok (.cons h hh) (List.suffix_refl _) (List.suffix_refl _)
  · rw [h1, h2]; exact sm_ok .nil (List.suffix_refl _) (List.suffix_refl _)
  · rcases h with h | h <;> rw [h]
    · exact sm_undefL (.inl rfl)
    · exact sm_undefL (.inr rfl)
  · rcases h with h | h <;> rw [h]
    · exact sm_undefR (.inl rfl)
    · exact sm_undefR (.inr rfl)

/-! ### Tokens -/

theorem suffix_dropWhile {f : Char → Bool} (h : f '\n' = true → f ' ' = true) (s : Str) :
    s.dropWhile f <:+ s ∧ reindent φ (s.dropWhile f) <:+ reindent φ s :=
  ⟨List.dropWhile_suffix _, by rw [← dropWhile h]; exact List.dropWhile_suffix _⟩

theorem s_takeWhile0 {f : Char → Bool} (h : f '\n' = true → f ' ' = true) :
    S φ I (Fn (reindent φ)) (takeWhile0 f) (takeWhile0 f) := fun s _ => by
  unfold takeWhile0
  rw [takeWhile h, dropWhile h]
  exact sm_ok rfl (List.dropWhile_suffix _) (suffix_dropWhile h s).2

theorem s_takeWhile1 {f : Char → Bool} (h : f '\n' = true → f ' ' = true) :
    S φ I (Fn (reindent φ)) (takeWhile1 f) (takeWhile1 f) := fun s _ => by
  unfold takeWhile1
  rw [takeWhile h, dropWhile h]
  rcases cases (s.takeWhile f) with e | ⟨c, t, e, hc⟩ | ⟨n, r, e, hr⟩
  · rw [e]; exact sm_err
  · rw [e, from_cons_none hc]
    exact sm_ok (from_cons_none hc).symm (List.dropWhile_suffix _) (suffix_dropWhile h s).2
  · rw [e, newline n hr]
    exact sm_ok (newline n hr).symm (List.dropWhile_suffix _) (suffix_dropWhile h s).2

theorem s_char {c : Char} (hc : c ≠ '\n') : S φ I (Fn id) (char c) (char c) := fun s _ => by
  rcases cases s with rfl | ⟨d, t, rfl, hd⟩ | ⟨n, r, rfl, hr⟩
  · exact sm_err
  · rw [from_cons_none hd]
    unfold char
    simp only
    split
    · refine sm_ok rfl (List.suffix_cons _ _) ?_
      rw [from_cons_none hd]; exact List.suffix_cons _ _
    · exact sm_err
  · rw [newline n hr, char_cons_ne _ (Ne.symm hc), char_cons_ne _ (Ne.symm hc)]
    exact sm_err

theorem stripPrefix_re (k s : Str) (hk : '\n' ∉ k) :
    (∃ r, stripPrefix k s = some r ∧ stripPrefix k (reindent φ s) = some (reindent φ r) ∧ s = k ++ r) ∨
    (stripPrefix k s = none ∧ stripPrefix k (reindent φ s) = none) := by
  induction k generalizing s with
  | nil => exact .inl ⟨s, rfl, rfl, rfl⟩
  | cons c k ih =>
    simp only [List.mem_cons, not_or] at hk
    rcases cases s with rfl | ⟨d, t, rfl, hd⟩ | ⟨n, r, rfl, hr⟩
    · exact .inr ⟨rfl, rfl⟩
    · rw [from_cons_none hd]
      simp only [stripPrefix]
      by_cases e : d = c
      · rw [if_pos e, if_pos e]
        rcases ih t hk.2 with ⟨r, h1, h2, h3⟩ | h'
        · exact .inl ⟨r, h1, h2, by rw [h3, e]; rfl⟩
        · exact .inr h'
      · rw [if_neg e, if_neg e]; exact .inr ⟨rfl, rfl⟩
    · rw [newline n hr]
      simp only [stripPrefix]
      rw [if_neg hk.1, if_neg hk.1]; exact .inr ⟨rfl, rfl⟩

theorem s_tag {k : Str} (hk : '\n' ∉ k) : S φ I (Fn id) (tag k) (tag k) := fun s _ => by
  unfold tag
  rcases stripPrefix_re (φ := φ) k s hk with ⟨r, h1, h2, rfl⟩ | ⟨h1, h2⟩
  · rw [h1, h2]
    refine sm_ok rfl (List.suffix_append _ _) ?_
    rw [append_of_no_newline hk]; exact List.suffix_append _ _
  · rw [h1, h2]; exact sm_err

theorem not_mem_takeWhile {f : Char → Bool} (h : f '\n' = false) (s : Str) : '\n' ∉ s.takeWhile f := fun hm => by
  have h1 : ∀ c ∈ s.takeWhile f, f c = true := ((span_iff (s := s) (f := f)).1 ⟨rfl, rfl⟩).2.1
  have := h1 _ hm
  rw [h] at this; cases this

theorem s_token {f : Char → Bool} (h : f '\n' = false) : S φ I (Fn id) (takeWhile1 f) (takeWhile1 f) := fun s hs => by
  rcases s_takeWhile1 (φ := φ) (I := I) (f := f) (by rw [h]; simp) s hs with ⟨v, v', r, h1, h2, h3, h4⟩ | h'
  · refine .inl ⟨v, v', r, h1, h2, ?_, h4⟩
    have : '\n' ∉ v := by
      intro hm
      have := (takeWhile1_iff.1 h1).2.2.1 _ hm
      rw [h] at this; cases this
    rw [show v' = _ from h3, id_of_no_newline this]; rfl
  · exact .inr h'

theorem s_reStar {f : Char → Bool} (h : f '\n' = true → f ' ' = true) :
    S φ I (Fn (List.map (reindent φ))) (reMatches (reStar f)) (reMatches (reStar f)) := fun s _ => by
  simp only [reMatches, reStar]
  rw [takeWhile h, dropWhile h]
  exact sm_ok rfl (List.dropWhile_suffix _) (suffix_dropWhile h s).2

theorem s_reLine : S φ I (Fn id) (reMatches reLine) (reMatches reLine) := fun s _ => by
  let f : Char → Bool := fun c => c != '\n'
  have h : f '\n' = true → f ' ' = true := fun _ => rfl
  show Sm φ (Fn id) s (.ok [s.takeWhile f] (s.dropWhile f))
    (.ok [(reindent φ s).takeWhile f] ((reindent φ s).dropWhile f))
  rw [takeWhile h, dropWhile h, id_of_no_newline (not_mem_takeWhile rfl s)]
  exact sm_ok rfl (List.dropWhile_suffix _) (suffix_dropWhile h s).2

theorem s_reHeadTail {h t : Char → Bool} (hh : h '\n' = false) (ht : t '\n' = false) :
    S φ I (Fn id) (reMatches (reHeadTail h t)) (reMatches (reHeadTail h t)) := fun s _ => by
  have h' : t '\n' = true → t ' ' = true := by rw [ht]; simp
  rcases cases s with rfl | ⟨c, s, rfl, hc⟩ | ⟨n, r, rfl, hr⟩
  · exact sm_err
  · rw [from_cons_none hc]
    simp only [reMatches, reHeadTail]
    rw [takeWhile h', dropWhile h', id_of_no_newline (not_mem_takeWhile ht s)]
    by_cases e : h c = true
    · rw [if_pos e, if_pos e]
      have h2 := suffix_dropWhile (φ := φ) h' s
      refine sm_ok rfl (h2.1.trans (List.suffix_cons _ _)) ?_
      rw [from_cons_none hc]
      exact h2.2.trans (List.suffix_cons _ _)
    · rw [if_neg e, if_neg e]
      exact sm_err
  · rw [newline n hr]
    simp only [reMatches, reHeadTail, hh]
    exact sm_err

theorem s_index {v : List α} {v' : List β} (h : LRel R v v') (i : Nat) : S φ I R (index v i) (index v' i) := fun s _ => by
  unfold index
  induction h generalizing i with
  | nil => exact sm_undefL (.inr (by simp))
  | cons h _ ih =>
    cases i with
    | zero => exact sm_ok h (List.suffix_refl _) (List.suffix_refl _)
    | succ i => exact ih i

theorem LRel.refl (v : List α) : LRel (Fn id) v v := by
  induction v with
  | nil => exact .nil
  | cons _ _ ih => exact .cons rfl ih
theorem LRel.map {f : α → β} (v : List α) : LRel (Fn f) v (v.map f) := by
  induction v with
  | nil => exact .nil
  | cons _ _ ih => exact .cons rfl ih
theorem LRel.id {v v' : List α} (h : LRel (Fn id) v v') : v' = v := by rw [h.fn, List.map_id]
theorem ORel.fn {f : α → β} {v : Option α} {v' : Option β} (h : ORel (Fn f) v v') : v' = v.map f := by
  cases h with
  | none => rfl
  | some h => rw [h]; rfl

/-- The parser behaves the same on both texts. -/
abbrev E (φ : Nat → Nat) (I : Nat → Prop) (p : Parser α) : Prop := S φ I (Fn id) p p

theorem e_index (v : List α) (i : Nat) : E φ I (index v i) := s_index (LRel.refl v) i
theorem e_pure (v : α) : E φ I (pure v) := s_pure rfl
theorem e_bind {p : Parser α} {q : α → Parser γ} {q' : α → Parser δ} (hp : E φ I p)
    (hq : ∀ v, S φ I Q (q v) (q' v)) : S φ I Q (p >>= q) (p >>= q') :=
  s_bind hp fun v _ h => by cases h; exact hq v
theorem e_pmap {p : Parser α} {f : α → γ} {g : α → δ} (hp : E φ I p)
    (h : ∀ v, Q (f v) (g v)) : S φ I Q (pmap p f) (pmap p g) := e_bind hp fun v => s_pure (h v)
theorem e_loName : E φ I loName :=
  s_alt (s_tag (by decide)) (e_bind (s_reHeadTail rfl rfl) fun _ => e_bind (e_index _ _) fun _ => by
    split
    · exact s_fail
    · exact e_pure _)
theorem e_upName : E φ I upName := e_bind (s_reHeadTail rfl rfl) fun _ => e_index _ _
theorem e_operator : E φ I operator :=
  e_bind (s_reHeadTail rfl rfl) fun _ => e_bind (e_index _ _) fun _ => by
    split
    · exact s_fail
    · exact e_pure _
theorem e_spaces : E φ I spaces := s_token rfl
theorem e_digit : E φ I digit := s_token rfl
theorem e_singleLineComment : E φ I singleLineComment :=
  e_bind (s_preceded (s_tag (by decide)) s_reLine) fun _ => e_index _ _
theorem s_multispace0 : S φ I (Fn (reindent φ)) multispace0 multispace0 := s_takeWhile0 fun _ => rfl
theorem s_multispace : S φ I (Fn (reindent φ)) multispace multispace := s_takeWhile1 fun _ => rfl
theorem s_sn : S φ I (Fn (reindent φ)) spacesAndNewlines spacesAndNewlines := s_takeWhile1 fun _ => rfl

/-! ### Layout -/

/-- Indentations that are allowed, the second of which is `φ` of the first. -/
def In (φ : Nat → Nat) (I : Nat → Prop) : Nat → Nat → Prop := fun i i' => I i ∧ i' = φ i
/-- Pieces of white space. -/
def Pc (φ : Nat → Nat) (I : Nat → Prop) : SpacesContent × Nat → SpacesContent × Nat → Prop :=
  fun x x' => x'.1 = x.1 ∧ In φ I x.2 x'.2

theorem newLineItem_cases (hφ : Ok φ I) {n : Nat} {r : Str} (hr : Next (· ≠ ' ') r) (hs : D I ('\n' :: (sp n ++ r))) :
    newLineItem ('\n' :: (sp n ++ r)) = .ok (.NewLineAndSpaces, n) r ∧
    newLineItem ('\n' :: (sp (φ n) ++ reindent φ r)) = .ok (.NewLineAndSpaces, φ n) (reindent φ r) := by
  have := hφ.u32 (hs.head hr)
  constructor
  · rw [← List.cons_append, newLineItem_sp hr, this.1]
  · rw [← List.cons_append, newLineItem_sp ((next r).2 hr), this.2]

theorem suffix_newline {n : Nat} {r : Str} (hr : Next (· ≠ ' ') r) :
    r <:+ '\n' :: (sp n ++ r) ∧ reindent φ r <:+ reindent φ ('\n' :: (sp n ++ r)) := by
  rw [newline n hr]
  exact ⟨⟨'\n' :: sp n, rfl⟩, ⟨'\n' :: sp (φ n), rfl⟩⟩

theorem s_newLineItem (hφ : Ok φ I) : S φ I (Pc φ I) newLineItem newLineItem := fun s hs => by
  rcases cases s with rfl | ⟨c, s, rfl, hc⟩ | ⟨n, r, rfl, hr⟩
  · exact sm_err
  · rw [from_cons_none hc, newLineItem_err (next_cons.2 hc), newLineItem_err (next_cons.2 hc)]
    exact sm_err
  · obtain ⟨h1, h2⟩ := newLineItem_cases hφ hr hs
    rw [newline n hr, h1, h2]
    have h3 := suffix_newline (φ := φ) (n := n) hr
    exact sm_ok ⟨rfl, hs.head hr, rfl⟩ h3.1 h3.2

theorem s_gapItem (hφ : Ok φ I) {ind : Nat} (hi : I ind) : S φ I (LRel (Pc φ I)) (gapItem ind) (gapItem (φ ind)) :=
  s_alt (e_pmap e_spaces fun _ => .cons ⟨rfl, hi, rfl⟩ .nil)
    (s_alt (e_pmap e_singleLineComment fun _ => .cons ⟨rfl, hφ.mem, hφ.zero.symm⟩ .nil) (s_many1 hφ (s_newLineItem hφ)))

theorem LRel.getLast {v : List α} {v' : List β} (h : LRel R v v') {a : α} {b : β} (hab : R a b) :
    R (v.getLast?.getD a) (v'.getLast?.getD b) := by
  induction h generalizing a b with
  | nil => exact hab
  | @cons x x' xs xs' h _ ih =>
    rw [List.getLast?_cons, List.getLast?_cons]
    exact ih h

theorem LRel.any {v : List α} {v' : List β} (h : LRel R v v') {f : α → Bool} {g : β → Bool}
    (hfg : ∀ a b, R a b → f a = g b) : v.any f = v'.any g := by
  induction h with
  | nil => rfl
  | cons h _ ih => rw [List.any_cons, List.any_cons, hfg _ _ h, ih]

theorem gapCheck_rel (hφ : Ok φ I) {ind : Nat} (hi : I ind) (ir : IR) {v v' : List (List (SpacesContent × Nat))}
    (h : LRel (LRel (Pc φ I)) v v') : ORel (In φ I) (gapCheck ind ir v) (gapCheck (φ ind) ir v') := by
  have h1 : Pc φ I ((v.getLast?.getD []).getLast?.getD (.Spaces, 0)) ((v'.getLast?.getD []).getLast?.getD (.Spaces, 0)) :=
    (h.getLast .nil).getLast ⟨rfl, hφ.mem, hφ.zero.symm⟩
  have h2 : (v.any fun subv => subv.any fun x => x.1 == .NewLineAndSpaces) =
      (v'.any fun subv => subv.any fun x => x.1 == .NewLineAndSpaces) :=
    h.any fun _ _ h => h.any fun _ _ h => by rw [h.1]
  obtain ⟨-, h3, h4⟩ := h1
  unfold gapCheck
  simp only
  rw [← h2, h4]
  have key : ∀ (b : Bool) (i : Nat) {c c' : Bool}, I i → c' = c →
      ORel (In φ I) (if b || c then some i else none) (if b || c' then some (φ i) else none) := by
    rintro b i c _ hi rfl
    split
    · exact .some ⟨hi, rfl⟩
    · exact .none
  cases ir
  · refine key _ _ h3 ?_
    rw [Bool.eq_iff_iff, beq_iff_eq, beq_iff_eq]; exact hφ.inj h3 hi
  · refine key _ _ h3 ?_
    rw [Bool.eq_iff_iff, decide_eq_true_eq, decide_eq_true_eq]; exact hφ.lt_iff hi h3
  · refine key _ _ h3 ?_
    rw [Bool.eq_iff_iff, decide_eq_true_eq, decide_eq_true_eq]; exact hφ.le_iff hi h3

theorem s_gap (hφ : Ok φ I) {ind : Nat} (hi : I ind) (ir : IR) : S φ I (In φ I) (gap ind ir) (gap (φ ind) ir) :=
  s_mapRes (s_many1 hφ (s_gapItem hφ hi)) fun _ _ h => gapCheck_rel hφ hi ir h
theorem s_optGap (hφ : Ok φ I) {ind : Nat} (hi : I ind) (ir : IR) : S φ I (In φ I) (optGap ind ir) (optGap (φ ind) ir) :=
  s_pmap (s_opt (s_gap hφ hi ir)) fun _ _ h => by
    cases h with
    | none => exact ⟨hi, rfl⟩
    | some h => exact h

theorem s_newLineAndSameIndent (hφ : Ok φ I) {ind : Nat} (hi : I ind) :
    S φ I (In φ I) (newLineAndSameIndent ind) (newLineAndSameIndent (φ ind)) := fun s hs => by
  rcases cases s with rfl | ⟨c, s, rfl, hc⟩ | ⟨n, r, rfl, hr⟩
  · exact sm_err
  · rw [from_cons_none hc]
    simp only [newLineAndSameIndent, mapRes, bind_apply, preceded_apply, char_cons_ne _ hc]
    exact sm_err
  · have hn := hs.head hr
    have key : ∀ (j m : Nat) {q : Str}, Next (· ≠ ' ') q → asU32 m = m →
        newLineAndSameIndent j ('\n' :: (sp m ++ q)) = if m = j then .ok m q else .err := by
      intro j m q hq hm
      have hl : (sp m).length = m := by simp [sp]
      simp only [newLineAndSameIndent, mapRes, bind_apply, preceded_apply, char_cons, andThen_ok, pmap_apply,
        spaces0_sp hq, hl, hm, beq_iff_eq]
      split
      · rfl
      · rfl
    rw [newline n hr, key _ _ hr (hφ.u32 hn).1, key _ _ ((next r).2 hr) (hφ.u32 hn).2]
    by_cases e : n = ind
    · rw [if_pos e, if_pos (by rw [e])]
      have h3 := suffix_newline (φ := φ) (n := n) hr
      exact sm_ok ⟨hn, rfl⟩ h3.1 h3.2
    · rw [if_neg e, if_neg fun e' => e ((hφ.inj hn hi).1 e')]
      exact sm_err

/-! ### Types -/

section
variable (hφ : Ok φ I) {ind : Nat} (hi : I ind)
include hφ

theorem s_commaSep (hi : I ind) : E φ I (char ',') → S φ I (Fn id) (commaSep ind) (commaSep (φ ind)) := fun h =>
  s_delimited (s_opt (s_gap hφ hi _)) h (s_opt (s_gap hφ hi _))
theorem s_comma (hi : I ind) : S φ I (Fn id) (commaSep ind) (commaSep (φ ind)) :=
  s_commaSep hφ hi (s_char (by decide))

/-- Something in brackets with optional white space. -/
theorem s_brackets (hi : I ind) {p : Parser α} {p' : Parser β} {a b : Char} (ha : a ≠ '\n') (hb : b ≠ '\n') (hp : S φ I R p p') :
    S φ I R (delimited (preceded (char a) (opt (gap ind .GTE))) p (terminated (opt (gap ind .GTE)) (char b)))
      (delimited (preceded (char a) (opt (gap (φ ind) .GTE))) p' (terminated (opt (gap (φ ind) .GTE)) (char b))) :=
  s_delimited (s_preceded (s_char ha) (s_opt (s_gap hφ hi _))) hp
    (s_terminated (s_opt (s_gap hφ hi _)) (s_char hb))

theorem e_dotted : E φ I (sepNonemptyList (char '.') upName) :=
  s_mono (s_sepNonemptyList hφ (s_char (c := '.') (by decide)) e_upName) fun h => h.id
end

theorem e_typeVariable : E φ I typeVariable :=
  e_bind (s_reHeadTail rfl rfl) fun _ => e_bind (e_index _ _) fun _ => e_pure _

/-- The recursive calls agree. -/
structure TyOk (φ : Nat → Nat) (I : Nat → Prop) (rc rc' : TyRec) : Prop where
  ty : ∀ {ind}, I ind → S φ I (Fn id) (rc.type_ ind) (rc'.type_ (φ ind))
  ann : ∀ {ind}, I ind → S φ I (Fn id) (rc.typeAnnotation ind) (rc'.typeAnnotation (φ ind))

section
variable (hφ : Ok φ I) {rc rc' : TyRec} (h : TyOk φ I rc rc') {ind : Nat} (hi : I ind)
include hφ h hi

theorem s_typeTuple : S φ I (Fn id) (typeTuple rc ind) (typeTuple rc' (φ ind)) :=
  s_pmap (s_brackets hφ hi (by decide) (by decide) (s_sepList hφ (s_comma hφ hi) (h.ty hi)))
    fun _ _ h => by rw [h.id]; rfl

theorem s_typeRecordPair : S φ I (Fn id) (typeRecordPair rc ind) (typeRecordPair rc' (φ ind)) :=
  e_bind e_loName fun _ => s_bind (s_opt (s_gap hφ hi _)) fun _ _ _ => s_bind (s_char (by decide)) fun _ _ _ =>
    s_bind (s_opt (s_gap hφ hi _)) fun _ _ _ => s_bind (h.ann hi) fun _ _ h => by cases h; exact e_pure _

theorem s_typeRecordPairs : S φ I (Fn id) (typeRecordPairs rc ind) (typeRecordPairs rc' (φ ind)) :=
  s_mono (s_sepList hφ (s_comma hφ hi) (s_typeRecordPair hφ h hi)) fun h => h.id

theorem s_typeRecord : S φ I (Fn id) (typeRecord rc ind) (typeRecord rc' (φ ind)) :=
  s_brackets hφ hi (by decide) (by decide) (s_pmap (s_typeRecordPairs hφ h hi) fun _ _ h => by cases h; rfl)

theorem s_typeParens : S φ I (Fn id) (typeParens rc ind) (typeParens rc' (φ ind)) :=
  s_brackets hφ hi (by decide) (by decide) (h.ann hi)

theorem s_typeRecordConstructor : S φ I (Fn id) (typeRecordConstructor rc ind) (typeRecordConstructor rc' (φ ind)) :=
  s_delimited (s_char (by decide)) (s_bind (s_gap hφ hi _) fun _ _ _ => e_bind e_typeVariable fun _ =>
    s_bind (s_gap hφ hi _) fun _ _ _ => s_bind (s_char (by decide)) fun _ _ _ => s_bind (s_gap hφ hi _) fun _ _ _ =>
    s_bind (s_typeRecordPairs hφ h hi) fun _ _ e => s_bind (s_gap hφ hi _) fun _ _ _ => by cases e; exact e_pure _)
    (s_char (by decide))

theorem s_typeParameter : S φ I (Fn id) (typeParameter rc ind) (typeParameter rc' (φ ind)) :=
  s_alt e_typeVariable (s_alt (e_pmap (e_dotted hφ) fun _ => rfl) (s_alt (s_typeRecordConstructor hφ h hi)
    (s_alt (s_typeRecord hφ h hi) (s_alt (s_typeTuple hφ h hi) (s_typeParens hφ h hi)))))

theorem s_typeConstructorF : S φ I (Fn id) (typeConstructorF rc ind) (typeConstructorF rc' (φ ind)) :=
  e_bind (e_dotted hφ) fun _ => s_bind (s_many0 hφ (R := Fn id) (s_bind (s_gap hφ hi _) fun _ _ hj => by
    obtain ⟨hj, rfl⟩ := hj
    exact s_typeParameter hφ h hj)) fun _ _ h => by rw [h.id]; exact e_pure _

theorem s_typeF : S φ I (Fn id) (typeF rc ind) (typeF rc' (φ ind)) :=
  s_alt (s_typeConstructorF hφ h hi) (s_alt e_typeVariable (s_alt (s_typeRecordConstructor hφ h hi)
    (s_alt (s_typeRecord hφ h hi) (s_alt (s_typeTuple hφ h hi) (s_typeParens hφ h hi)))))

theorem s_typeAnnotationF : S φ I (Fn id) (typeAnnotationF rc ind) (typeAnnotationF rc' (φ ind)) :=
  s_bind (s_sepNonemptyList hφ (s_delimited s_sn (s_tag (by decide)) s_sn) (s_typeF hφ h hi)) fun v v' e => by
    cases e.id
    split
    · exact s_fail
    · split
      · exact e_index _ _
      · split
        · exact e_pure _
        · exact s_fail
end

theorem tyOk_tyN (hφ : Ok φ I) (n : Nat) : TyOk φ I (tyN n) (tyN n) := by
  induction n with
  | zero => exact ⟨fun _ _ _ => sm_undefL (.inl rfl), fun _ _ _ => sm_undefL (.inl rfl)⟩
  | succ n ih => exact ⟨fun hi => s_typeF hφ ih hi, fun hi => s_typeAnnotationF hφ ih hi⟩

theorem tyOk_tyRec (hφ : Ok φ I) : TyOk φ I tyRec tyRec where
  ty {ind} hi s hs := by
    have h := (tyOk_tyN hφ ((s.length + 1) + ((reindent φ s).length + 1))).ty hi s hs
    rw [le_eq ((tyLe_tyRec _).ty ind) (ne_div_of_good ((goodRec_tyN _).ty ind) (by omega)),
      le_eq ((tyLe_tyRec _).ty (φ ind)) (ne_div_of_good ((goodRec_tyN _).ty (φ ind)) (by omega))] at h
    exact h
  ann {ind} hi s hs := by
    have h := (tyOk_tyN hφ ((s.length + 1) + ((reindent φ s).length + 1))).ann hi s hs
    rw [le_eq ((tyLe_tyRec _).ann ind) (ne_div_of_good ((goodRec_tyN _).ann ind) (by omega)),
      le_eq ((tyLe_tyRec _).ann (φ ind)) (ne_div_of_good ((goodRec_tyN _).ann (φ ind)) (by omega))] at h
    exact h

/-! ### Literals -/

/-- The values are the same up to the contents of string literals. -/
abbrev X (φ : Nat → Nat) : Expr → Expr → Prop := Fn (exprMap (reindent φ))

theorem exprsMap_eq (g : Str → Str) (es : List Expr) : exprsMap g es = es.map (exprMap g) := by
  induction es with
  | nil => rfl
  | cons e es ih => rw [exprsMap, ih]; rfl

theorem s_variableP (hφ : Ok φ I) : S φ I (X φ) variableP variableP :=
  s_alt (e_pmap e_loName fun _ => rfl) (s_alt (e_pmap (e_dotted hφ) fun _ => rfl)
    (e_pmap (s_delimited (s_char (by decide)) (s_alt e_operator (s_token rfl)) (s_char (by decide))) fun _ => rfl))

theorem e_dotName : E φ I dotName := s_bind (s_char (by decide)) fun _ _ _ => e_loName
theorem s_access (hφ : Ok φ I) : S φ I (X φ) access access :=
  s_bind (s_variableP hφ) fun _ _ h => s_bind (s_many1 hφ e_dotName) fun _ _ h' => by
    cases h; rw [h'.id]; exact s_pure rfl
theorem s_accessFunction : S φ I (X φ) accessFunction accessFunction :=
  s_bind (s_char (by decide)) fun _ _ _ => e_bind e_loName fun _ => s_pure rfl

theorem stringBody_stop {c : Char} (h : c = '"' ∨ c = '\n') (t : Str) : stringBody (c :: t) = ([], c :: t) := by
  cases t with
  | nil => simp only [stringBody]; rw [if_neg (by rintro ⟨h1, h2⟩; rcases h with h | h <;> contradiction)]
  | cons d t =>
    have h1 : c ≠ '\\' := by rcases h with rfl | rfl <;> decide
    simp only [stringBody]
    rw [if_neg (fun h' => h1 h'.1), if_neg (by rintro ⟨h1, h2⟩; rcases h with h | h <;> contradiction)]

theorem head (d : Char) (s : Str) : ∃ t, reindent φ (d :: s) = d :: t := by
  rcases cases (d :: s) with h | ⟨c, t, h, hc⟩ | ⟨n, r, h, hr⟩
  · cases h
  · cases h; exact ⟨_, from_cons_none hc⟩
  · rw [h, newline n hr]; cases h; exact ⟨_, rfl⟩

theorem stringBody_re (s : Str) : stringBody (reindent φ s) = ((stringBody s).1, reindent φ (stringBody s).2) ∧
    '\n' ∉ (stringBody s).1 ∧ s = (stringBody s).1 ++ (stringBody s).2 := by
  fun_induction stringBody s with
  | case1 => exact ⟨rfl, by simp, rfl⟩
  | case2 c d s h x ih =>
    have h1 : c ≠ '\n' := by rw [h.1]; decide
    have h2 : d ≠ '\n' := by rcases h.2 with h | h <;> rw [h] <;> decide
    rw [from_cons_none h1, from_cons_none h2]
    simp only [stringBody, h, and_self, if_true]
    rw [ih.1]
    refine ⟨rfl, by simp [x, ih.2.1, Ne.symm h2], ?_⟩
    show _ :: _ :: s = _ :: _ :: (_ ++ _)
    rw [← ih.2.2]
  | case3 c d s h1 h2 x ih =>
    rw [from_cons_none h2.2]
    obtain ⟨t, e⟩ := head (φ := φ) d s
    rw [e] at ih ⊢
    simp only [stringBody, h1, if_false, h2, ne_eq, not_false_eq_true, and_self, if_true]
    rw [ih.1]
    refine ⟨rfl, by simp [x, ih.2.1, Ne.symm h2.2], ?_⟩
    show c :: d :: s = c :: (_ ++ _)
    rw [← ih.2.2]
  | case4 c d s h1 h2 =>
    have h3 : c = '"' ∨ c = '\n' := by grind
    obtain ⟨t, e⟩ := head (φ := φ) c (d :: s)
    simp only [e, stringBody_stop h3]
    exact ⟨trivial, by simp, rfl⟩
  | case5 c h =>
    rw [from_cons_none h.2]
    simp [stringBody, h, nil, Ne.symm h.2]
  | case6 c h =>
    have h3 : c = '"' ∨ c = '\n' := by grind
    obtain ⟨t, e⟩ := head (φ := φ) c []
    simp only [e, stringBody_stop h3]
    exact ⟨trivial, by simp, rfl⟩

theorem s_singleString : S φ I (Fn (reindent φ)) singleString singleString :=
  s_bind (R := Fn (List.map (reindent φ))) (s_delimited (s_char (by decide)) (fun s _ => by
    obtain ⟨h1, h2, h3⟩ := stringBody_re (φ := φ) s
    simp only [reMatches, h1]
    refine sm_ok (by rw [Fn, List.map_cons, List.map_nil, id_of_no_newline h2]) ⟨_, h3.symm⟩ ?_
    exact ⟨(stringBody s).1, by rw [← append_of_no_newline h2, ← h3]⟩) (s_char (by decide))) fun v _ e => by
    cases e; exact s_index (LRel.map v) 0

theorem s_multiString : S φ I (Fn (reindent φ)) multiString multiString :=
  s_bind (s_delimited (s_tag (by decide)) (s_reStar (by decide)) (s_tag (by decide))) fun v v' e => by
    cases e; exact s_index (LRel.map v) 0

theorem s_string : S φ I (X φ) string string :=
  s_pmap (s_alt s_multiString s_singleString) fun _ _ h => by cases h; rfl

theorem e_sign : E φ I sign :=
  s_pmap (s_opt (s_alt (s_char (by decide)) (s_char (by decide)))) fun _ _ h => by
    cases h with
    | none => rfl
    | some h => cases h; rfl
theorem s_float : S φ I (X φ) float float :=
  e_bind e_sign fun _ => e_bind e_digit fun _ => s_bind (s_char (by decide)) fun _ _ _ => e_bind e_digit fun _ => s_pure rfl
theorem s_integer : S φ I (X φ) integer integer :=
  e_bind e_sign fun _ => e_bind e_digit fun _ => s_pure rfl

/-- The indentation 0 stays. -/
theorem newline_not_space (hφ : Ok φ I) {c : Char} {t : Str} (h : c ≠ ' ') :
    reindent φ ('\n' :: c :: t) = '\n' :: reindent φ (c :: t) := by
  have := newline (φ := φ) 0 (r := c :: t) (next_cons.2 h)
  rw [hφ.zero] at this
  exact this

theorem unappend {w s t : Str} (hw : '\n' ∉ w) (h : reindent φ s = w ++ t) : ∃ t', s = w ++ t' := by
  induction w generalizing s with
  | nil => exact ⟨s, rfl⟩
  | cons c w ih =>
    simp only [List.mem_cons, not_or] at hw
    rcases cases s with rfl | ⟨d, s, rfl, hd⟩ | ⟨n, r, rfl, hr⟩
    · cases h
    · rw [from_cons_none hd] at h
      obtain ⟨rfl, h2⟩ := List.cons.inj h
      obtain ⟨t', rfl⟩ := ih hw.2 h2
      exact ⟨t', rfl⟩
    · rw [newline n hr] at h
      exact absurd (List.cons.inj h).1 hw.1

theorem charText_cases {w : Str} {c : Char} (h : CharText w c) : w = ['\n'] ∨ '\n' ∉ w := by
  rcases h with rfl | ⟨a, b, v, rfl, h, -⟩
  · by_cases e : c = '\n'
    · rw [e]; exact .inl rfl
    · right; simp [Ne.symm e]
  · right
    have h0 : ∀ v, ¬ HexDigit '\n' v := fun v h => by
      have e : Char.toNat '\n' = 10 := rfl
      rcases h with ⟨h, -⟩ | ⟨h, -⟩ | ⟨h, -⟩
      · exact absurd h (by decide)
      · omega
      · omega
    have h1 : a ≠ '\n' := by
      rintro rfl
      rcases h with ⟨x, y, h, -⟩ | ⟨h, -⟩
      · exact h0 _ h
      · cases h
    have h2 : b ≠ '\n' := by
      rintro rfl
      rcases h with ⟨x, y, -, h, -⟩ | ⟨-, h⟩
      · exact h0 _ h
      · exact h0 _ h
    simp [Ne.symm h1, Ne.symm h2]

theorem s_character (hφ : Ok φ I) : S φ I (X φ) character character := fun s hs => by
  have mk : ∀ {w r : Str} {c : Char}, CharText w c → reindent φ ('\'' :: w ++ '\'' :: r) = '\'' :: w ++ '\'' :: reindent φ r := by
    intro w r c h
    have e : ∀ r, reindent φ ('\'' :: r) = '\'' :: reindent φ r := fun r => from_cons_none (by decide)
    rw [List.cons_append, e]
    rcases charText_cases h with rfl | h
    · show _ :: reindent φ ('\n' :: '\'' :: r) = _
      rw [newline_not_space hφ (by decide), e]; rfl
    · rw [append_of_no_newline h, e]; rfl
  have tot := err_or_ok (p := character) fun k => cons_character k
  rcases tot s with e | ⟨v, r, e, -⟩
  · rcases tot (reindent φ s) with e' | ⟨v', r', e', -⟩
    · rw [e, e']; exact sm_err
    · exfalso
      obtain ⟨w, c, rfl, h1, h2⟩ := character_iff.1 e'
      obtain ⟨t, rfl⟩ := unappend (w := ['\'']) (by decide) h1
      have h3 : reindent φ t = w ++ '\'' :: r' := by
        have : reindent φ ('\'' :: t) = '\'' :: reindent φ t := from_cons_none (by decide)
        rw [List.singleton_append, this] at h1
        exact (List.cons.inj h1).2
      suffices ∃ r, t = w ++ '\'' :: r by
        obtain ⟨r, rfl⟩ := this
        rw [show ['\''] ++ (w ++ '\'' :: r) = '\'' :: w ++ '\'' :: r from rfl, character_iff.2 ⟨w, c, rfl, rfl, h2⟩] at e
        cases e
      rcases charText_cases h2 with rfl | h4
      · rcases cases t with rfl | ⟨d, s, rfl, hd⟩ | ⟨n, r, rfl, hr⟩
        · cases h3
        · rw [from_cons_none hd] at h3
          exact absurd (List.cons.inj h3).1 hd
        · rw [newline n hr] at h3
          have h5 : sp (φ n) ++ reindent φ r = sp 0 ++ '\'' :: r' := (List.cons.inj h3).2
          obtain ⟨h6, h7⟩ := sp_append_inj ((next r).2 hr) (next_cons.2 (by decide)) h5
          have hn : I n := (hs.tail).head hr
          rw [← hφ.zero, hφ.inj hn hφ.mem] at h6
          subst h6
          obtain ⟨t, rfl⟩ := unappend (w := ['\'']) (by decide) h7
          exact ⟨t, rfl⟩
      · obtain ⟨r, hr⟩ := unappend (w := w ++ ['\'']) (t := r') (by simp [h4]) (by rw [h3]; simp)
        exact ⟨r, by rw [hr]; simp⟩
  · obtain ⟨w, c, rfl, rfl, h⟩ := character_iff.1 e
    rw [e, mk h, character_iff.2 ⟨w, c, rfl, rfl, h⟩]
    refine sm_ok rfl ⟨'\'' :: w ++ ['\''], by simp⟩ ?_
    rw [mk h]
    exact ⟨'\'' :: w ++ ['\''], by simp⟩

/-! ### Expressions -/

/-- Fields and branches. -/
abbrev Fd (φ : Nat → Nat) : Name × Expr → Name × Expr → Prop := Fn fun x => (x.1, exprMap (reindent φ) x.2)
abbrev Br (φ : Nat → Nat) : Expr × Expr → Expr × Expr → Prop :=
  Fn fun x => (exprMap (reindent φ) x.1, exprMap (reindent φ) x.2)

theorem fieldsMap_eq (g : Str → Str) (fs : List (Name × Expr)) :
    fieldsMap g fs = fs.map fun x => (x.1, exprMap g x.2) := by
  induction fs with
  | nil => rfl
  | cons x fs ih => obtain ⟨n, e⟩ := x; rw [fieldsMap, ih]; rfl
theorem branchesMap_eq (g : Str → Str) (bs : List (Expr × Expr)) :
    branchesMap g bs = bs.map fun x => (exprMap g x.1, exprMap g x.2) := by
  induction bs with
  | nil => rfl
  | cons x fs ih => obtain ⟨n, e⟩ := x; rw [branchesMap, ih]; rfl
theorem entriesMap_eq (g : Str → Str) (ls : List LetEntry) : entriesMap g ls = ls.map (entryMap g) := by
  induction ls with
  | nil => rfl
  | cons x fs ih => rw [entriesMap, ih]; rfl

theorem LRel.exprs {es es' : List Expr} (h : LRel (X φ) es es') : es' = exprsMap (reindent φ) es := by
  rw [exprsMap_eq, h.fn]
theorem LRel.fields {es es' : List (Name × Expr)} (h : LRel (Fd φ) es es') : es' = fieldsMap (reindent φ) es := by
  rw [fieldsMap_eq, h.fn]
theorem LRel.branches {es es' : List (Expr × Expr)} (h : LRel (Br φ) es es') : es' = branchesMap (reindent φ) es := by
  rw [branchesMap_eq, h.fn]
theorem LRel.entries {es es' : List LetEntry} (h : LRel (Fn (entryMap (reindent φ))) es es') :
    es' = entriesMap (reindent φ) es := by
  rw [entriesMap_eq, h.fn]

theorem LRel.length {v : List α} {v' : List β} (h : LRel R v v') : v'.length = v.length := by
  induction h with
  | nil => rfl
  | cons _ _ ih => rw [List.length_cons, List.length_cons, ih]
theorem LRel.drop {v : List α} {v' : List β} (h : LRel R v v') (n : Nat) : LRel R (v.drop n) (v'.drop n) := by
  induction h generalizing n with
  | nil => rw [List.drop_nil, List.drop_nil]; exact .nil
  | cons h t ih =>
    cases n with
    | zero => exact .cons h t
    | succ n => exact ih n

/-- The recursive calls agree. -/
def ExOk (φ : Nat → Nat) (I : Nat → Prop) (rc rc' : ExprRec) : Prop :=
  ∀ {ind}, I ind → S φ I (X φ) (rc ind) (rc' (φ ind))

section
variable (hφ : Ok φ I) {rc rc' : ExprRec} (h : ExOk φ I rc rc') {ind : Nat} (hi : I ind)
include hφ

theorem s_simplifiedRecord : S φ I (X φ) simplifiedRecord simplifiedRecord :=
  s_pmap (s_delimited (s_char (by decide)) (s_sepList hφ (s_char (c := ',') (by decide)) (Q := Fd φ)
    (s_bind s_multispace0 fun _ _ _ => e_bind e_loName fun _ => s_bind s_multispace0 fun _ _ _ => s_pure rfl))
    (s_char (by decide))) fun _ _ h => by rw [h.fields]; rfl

include h hi

theorem s_tuple : S φ I (X φ) (tuple rc ind) (tuple rc' (φ ind)) :=
  s_pmap (s_delimited (s_char (by decide)) (s_sepList hφ (s_char (c := ',') (by decide))
    (s_delimited s_multispace0 (h hi) s_multispace0)) (s_char (by decide))) fun _ _ h => by rw [h.exprs]; rfl

theorem s_list : S φ I (X φ) (list rc ind) (list rc' (φ ind)) :=
  s_pmap (s_brackets hφ hi (by decide) (by decide) (s_opt (s_sepList hφ (s_comma hφ hi) (h hi)))) fun _ _ h => by
    cases h with
    | none => rfl
    | some h => rw [h.exprs]; rfl

theorem s_recordField : S φ I (Fd φ) (recordField rc ind) (recordField rc' (φ ind)) :=
  e_bind e_loName fun _ => s_bind (s_delimited (s_opt (s_gap hφ hi _)) (s_char (by decide)) (s_opt (s_gap hφ hi _)))
    fun _ _ _ => s_bind (h hi) fun _ _ h => by cases h; exact s_pure rfl

theorem s_record : S φ I (X φ) (record rc ind) (record rc' (φ ind)) :=
  s_pmap (s_brackets hφ hi (by decide) (by decide) (s_sepList hφ (s_comma hφ hi) (s_recordField hφ h hi)))
    fun _ _ h => by rw [h.fields]; rfl

theorem s_updateField : S φ I (Fd φ) (updateField rc ind) (updateField rc' (φ ind)) :=
  e_bind e_loName fun _ => s_bind s_multispace0 fun _ _ _ => s_bind (s_char (by decide)) fun _ _ _ =>
    s_bind s_multispace0 fun _ _ _ => s_bind (h hi) fun _ _ h => by cases h; exact s_pure rfl

theorem s_recordUpdate : S φ I (X φ) (recordUpdate rc ind) (recordUpdate rc' (φ ind)) :=
  s_delimited (s_preceded (s_char (by decide)) (s_optGap hφ hi _))
    (e_bind e_loName fun _ => s_bind (s_optGap hφ hi _) fun _ _ _ => s_bind (s_char (by decide)) fun _ _ _ =>
      s_bind s_multispace0 fun _ _ _ => s_bind (s_sepList hφ (s_delimited (s_optGap hφ hi _) (s_char (by decide))
        (s_optGap hφ hi _)) (s_updateField hφ h hi)) fun _ _ h => by rw [h.fields]; exact s_pure rfl)
    (s_terminated (s_gap hφ hi _) (s_char (by decide)))

theorem s_parens : S φ I (X φ) (parens rc ind) (parens rc' (φ ind)) :=
  s_delimited (s_char (by decide)) (h hi) (s_char (by decide))

theorem s_termF : S φ I (X φ) (termF rc ind) (termF rc' (φ ind)) :=
  s_alt (s_access hφ) <| s_alt (s_variableP hφ) <| s_alt s_accessFunction <| s_alt s_string <| s_alt s_float <|
  s_alt s_integer <| s_alt (s_character hφ) <| s_alt (s_parens hφ h hi) <| s_alt (s_list hφ h hi) <|
  s_alt (s_tuple hφ h hi) <| s_alt (s_recordUpdate hφ h hi) <| s_alt (s_record hφ h hi) (s_simplifiedRecord hφ)

theorem s_lambda : S φ I (X φ) (lambda rc ind) (lambda rc' (φ ind)) :=
  s_bind (s_char (by decide)) fun _ _ _ => s_bind (s_sepNonemptyList hφ (s_token rfl) (s_termF hφ h hi)) fun _ _ h1 =>
    s_bind (s_gap hφ hi _) fun _ _ _ => s_bind (s_tag (by decide)) fun _ _ _ => s_bind (s_gap hφ hi _) fun _ _ hj => by
      obtain ⟨hj, rfl⟩ := hj
      exact s_bind (h hj) fun _ _ h2 => by rw [h1.exprs]; cases h2; exact s_pure rfl

omit hφ h hi in
theorem foldl_app {es es' : List Expr} (h : LRel (X φ) es es') {a a' : Expr} (ha : X φ a a') :
    X φ (es.foldl (fun app entry => .Application app entry) a) (es'.foldl (fun app entry => .Application app entry) a') := by
  induction h generalizing a a' with
  | nil => exact ha
  | cons h _ ih => exact ih (by cases ha; cases h; rfl)

theorem s_applicationOrVar : S φ I (X φ) (applicationOrVar rc ind) (applicationOrVar rc' (φ ind)) :=
  s_bind (s_sepList hφ (s_gap hφ hi _) (s_termF hφ h hi)) fun v v' e => by
    rw [show v'.isEmpty = v.isEmpty by cases e <;> rfl, e.length]
    split
    · exact s_fail
    · split
      · exact s_index e 0
      · exact s_bind (s_index e 0) fun _ _ ha => s_bind (s_index e 1) fun _ _ hb =>
          s_pure (foldl_app (e.drop 2) (by cases ha; cases hb; rfl))

omit h hi hφ in
theorem e_functionNameOrOp : E φ I functionNameOrOp :=
  s_alt e_loName (s_delimited (s_char (by decide)) e_operator (s_char (by decide)))

omit h in
theorem s_functionSignature : S φ I (Fn id) (functionSignature ind) (functionSignature (φ ind)) :=
  e_bind e_functionNameOrOp fun _ => s_bind e_spaces fun _ _ _ => s_bind (s_char (by decide)) fun _ _ _ =>
    s_bind (s_gap hφ hi _) fun _ _ hj => by
      obtain ⟨hj, rfl⟩ := hj
      exact s_bind ((tyOk_tyRec hφ).ann hj) fun _ _ e => by cases e; exact s_pure rfl

theorem s_functionDefinitionF : S φ I (Fn (definitionMap (reindent φ))) (functionDefinitionF rc ind)
    (functionDefinitionF rc' (φ ind)) :=
  e_bind e_functionNameOrOp fun _ => s_bind (s_many0 hφ (s_preceded e_spaces (s_termF hφ h hi))) fun _ _ h1 =>
    s_bind e_spaces fun _ _ _ => s_bind (s_char (by decide)) fun _ _ _ => s_bind (s_gap hφ hi _) fun _ _ hj => by
      obtain ⟨hj, rfl⟩ := hj
      exact s_bind (h hj) fun _ _ h2 => by rw [h1.exprs]; cases h2; exact s_pure rfl

theorem s_functionF : S φ I (Fn (functionMap (reindent φ))) (functionF rc ind) (functionF rc' (φ ind)) :=
  s_bind (s_opt (s_terminated (s_functionSignature hφ hi) (s_newLineAndSameIndent hφ hi))) fun _ _ h1 =>
    s_bind (s_functionDefinitionF hφ h hi) fun _ _ h2 => by
      rw [h1.fn, Option.map_id]; cases h2; exact s_pure rfl

theorem s_letBindingTarget : S φ I (X φ) (letBindingTarget rc ind) (letBindingTarget rc' (φ ind)) :=
  s_alt (s_variableP hφ) (s_alt (s_list hφ h hi) (s_alt (s_tuple hφ h hi) (s_simplifiedRecord hφ)))

theorem s_letBinding : S φ I (Fn (entryMap (reindent φ))) (letBinding rc ind) (letBinding rc' (φ ind)) :=
  s_bind (s_letBindingTarget hφ h hi) fun _ _ h1 => s_bind (s_gap hφ hi _) fun _ _ _ => s_bind (s_char (by decide))
    fun _ _ _ => s_bind (s_gap hφ hi _) fun _ _ hj => by
      obtain ⟨hj, rfl⟩ := hj
      exact s_bind (h hj) fun _ _ h2 => by cases h1; cases h2; exact s_pure rfl

theorem s_letEntry : S φ I (Fn (entryMap (reindent φ))) (letEntry rc ind) (letEntry rc' (φ ind)) :=
  s_alt (s_letBinding hφ h hi) (s_pmap (s_functionF hφ h hi) fun _ _ h => by cases h; rfl)

theorem s_letExpression : S φ I (X φ) (letExpression rc ind) (letExpression rc' (φ ind)) :=
  s_bind (s_tag (by decide)) fun _ _ _ => s_bind (s_gap hφ hi _) fun _ _ hj => by
    obtain ⟨hj, rfl⟩ := hj
    exact s_bind (s_sepNonemptyList hφ (s_gap hφ hj _) (s_letEntry hφ h hj)) fun _ _ h1 => s_bind (s_gap hφ hi _)
      fun _ _ _ => s_bind (s_tag (by decide)) fun _ _ _ => s_bind (s_gap hφ hi _) fun _ _ _ =>
        s_bind (h hi) fun _ _ h2 => by rw [h1.entries]; cases h2; exact s_pure rfl

theorem s_caseBranch : S φ I (Br φ) (caseBranch rc ind) (caseBranch rc' (φ ind)) :=
  s_bind (h hi) fun _ _ h1 => s_bind (s_gap hφ hi _) fun _ _ _ => s_bind (s_tag (by decide)) fun _ _ _ =>
    s_bind (s_gap hφ hi _) fun _ _ hj => by
      obtain ⟨hj, rfl⟩ := hj
      exact s_bind (h hj) fun _ _ h2 => by cases h1; cases h2; exact s_pure rfl

theorem s_caseExpression : S φ I (X φ) (caseExpression rc ind) (caseExpression rc' (φ ind)) :=
  s_bind (s_tag (by decide)) fun _ _ _ => s_bind (s_gap hφ hi _) fun _ _ _ => s_bind (h hi) fun _ _ h1 =>
    s_bind (s_gap hφ hi _) fun _ _ _ => s_bind (s_tag (by decide)) fun _ _ _ => s_bind (s_gap hφ hi _) fun _ _ hj => by
      obtain ⟨hj, rfl⟩ := hj
      exact s_bind (s_sepNonemptyList hφ (s_gap hφ hj _) (s_caseBranch hφ h hj)) fun _ _ h2 => by
        rw [h2.branches]; cases h1; exact s_pure rfl

theorem s_ifExpression : S φ I (X φ) (ifExpression rc ind) (ifExpression rc' (φ ind)) :=
  s_bind (s_tag (by decide)) fun _ _ _ => s_bind (s_gap hφ hi _) fun _ _ _ => s_bind (h hi) fun _ _ h1 =>
    s_bind (s_gap hφ hi _) fun _ _ _ => s_bind (s_tag (by decide)) fun _ _ _ => s_bind (s_gap hφ hi _) fun _ _ hj => by
      obtain ⟨hj, rfl⟩ := hj
      exact s_bind (h hj) fun _ _ h2 => s_bind (s_gap hφ hi _) fun _ _ _ => s_bind (s_tag (by decide)) fun _ _ _ =>
        s_bind (s_gap hφ hi _) fun _ _ hk => by
          obtain ⟨hk, rfl⟩ := hk
          exact s_bind (h hk) fun _ _ h3 => by cases h1; cases h2; cases h3; exact s_pure rfl

theorem s_binaryTail : S φ I (Br φ) (binaryTail rc ind) (binaryTail rc' (φ ind)) :=
  s_bind (s_gap hφ hi _) fun _ _ _ => s_bind (R := X φ) (e_pmap (s_alt (s_tag (by decide)) e_operator) fun _ => rfl)
    fun _ _ h1 => s_bind s_multispace fun _ _ _ => s_bind (h hi) fun _ _ h2 => by cases h1; cases h2; exact s_pure rfl

theorem s_binary : S φ I (X φ) (binary rc ind) (binary rc' (φ ind)) :=
  s_bind (s_applicationOrVar hφ h hi) fun _ _ h1 => s_bind (s_opt (s_binaryTail hφ h hi)) fun _ _ h2 => by
    cases h1
    cases h2 with
    | none => exact s_pure rfl
    | some h => cases h; exact s_pure rfl

theorem s_expressionF : S φ I (X φ) (expressionF rc ind) (expressionF rc' (φ ind)) :=
  s_alt (s_binary hφ h hi) <| s_alt (s_letExpression hφ h hi) <| s_alt (s_caseExpression hφ h hi) <|
  s_alt (s_ifExpression hφ h hi) (s_lambda hφ h hi)
end

theorem exOk_exprN (hφ : Ok φ I) (n : Nat) : ExOk φ I (exprN n) (exprN n) := by
  induction n with
  | zero => exact fun _ _ _ => sm_undefL (.inl rfl)
  | succ n ih => exact fun hi => s_expressionF hφ ih hi

theorem exOk_expression (hφ : Ok φ I) : ExOk φ I expression expression := by
  intro ind hi s hs
  have h := exOk_exprN hφ ((s.length + 1) + ((reindent φ s).length + 1)) hi s hs
  rw [exprN_eq_expression ind (s := s) (by omega), exprN_eq_expression (φ ind) (s := reindent φ s) (by omega)] at h
  exact h

/-! ### Statements -/

/-- The values are the same up to the contents of string literals and comments. -/
abbrev T (φ : Nat → Nat) : Statement → Statement → Prop := Fn (statementMap (reindent φ))

theorem append {a b : Str} (hb : Next (· ≠ ' ') b) : reindent φ (a ++ b) = reindent φ a ++ reindent φ b := by
  refine ind (P := fun a => reindent φ (a ++ b) = reindent φ a ++ reindent φ b) rfl ?_ ?_ a
  · intro c t hc ih
    rw [List.cons_append, from_cons_none hc, from_cons_none hc, ih]; rfl
  · intro n r hr ih
    have : Next (· ≠ ' ') (r ++ b) := by
      cases r with
      | nil => exact hb
      | cons c r => exact next_cons.2 ((next_cons (P := (· ≠ ' '))).1 hr)
    rw [List.cons_append, List.append_assoc, newline n this, newline n hr, ih]
    simp

theorem find_sp {k : Str} {c : Char} (hc : c ≠ ' ') (n : Nat) (s : Str) :
    findSubstring (c :: k) (sp n ++ s) = (findSubstring (c :: k) s).map fun x => (sp n ++ x.1, x.2) := by
  induction n with
  | zero =>
    show findSubstring (c :: k) s = _
    cases findSubstring (c :: k) s <;> rfl
  | succ n ih =>
    show findSubstring (c :: k) (' ' :: (sp n ++ s)) = _
    simp only [findSubstring, stripPrefix]
    rw [if_neg (Ne.symm hc), ih]
    cases findSubstring (c :: k) s <;> rfl

theorem find_newline {k : Str} {c : Char} (hc : c ≠ ' ') (hn : c ≠ '\n') (n : Nat) (s : Str) :
    findSubstring (c :: k) ('\n' :: (sp n ++ s)) = (findSubstring (c :: k) s).map fun x => ('\n' :: (sp n ++ x.1), x.2) := by
  simp only [findSubstring, stripPrefix]
  rw [if_neg (Ne.symm hn), find_sp hc]
  cases findSubstring (c :: k) s <;> rfl

theorem find_re {k : Str} {c : Char} (hc : c ≠ ' ') (hk : '\n' ∉ c :: k) (s : Str) :
    (findSubstring (c :: k) s = none ∧ findSubstring (c :: k) (reindent φ s) = none) ∨
    ∃ a b, findSubstring (c :: k) s = some (a, b) ∧
      findSubstring (c :: k) (reindent φ s) = some (reindent φ a, reindent φ b) ∧ s = a ++ c :: k ++ b := by
  have hn : c ≠ '\n' := fun e => hk (by simp [e])
  refine ind (.inl ⟨rfl, rfl⟩) ?_ ?_ s
  · intro d t hd ih
    have e := stripPrefix_re (φ := φ) (c :: k) (d :: t) hk
    rw [from_cons_none hd] at e ⊢
    simp only [findSubstring]
    rcases e with ⟨r, h1, h2, h3⟩ | ⟨h1, h2⟩
    · rw [h1, h2]; exact .inr ⟨[], r, rfl, rfl, h3⟩
    · rw [h1, h2]
      rcases ih with ⟨h3, h4⟩ | ⟨a, b, h3, h4, h5⟩
      · rw [h3, h4]; exact .inl ⟨rfl, rfl⟩
      · rw [h3, h4]
        refine .inr ⟨d :: a, b, rfl, ?_, by rw [h5]; rfl⟩
        rw [from_cons_none hd]
  · intro n r hr ih
    rw [newline n hr, find_newline hc hn, find_newline hc hn]
    rcases ih with ⟨h3, h4⟩ | ⟨a, b, h3, h4, h5⟩
    · rw [h3, h4]; exact .inl ⟨rfl, rfl⟩
    · rw [h3, h4]
      refine .inr ⟨'\n' :: (sp n ++ a), b, rfl, ?_, by rw [h5]; simp⟩
      have : Next (· ≠ ' ') a := by
        cases a with
        | nil => exact next_nil _
        | cons d a => rw [h5] at hr; exact next_cons.2 ((next_cons (P := (· ≠ ' '))).1 hr)
      rw [newline n this]; rfl

theorem s_untilClose : S φ I (Fn (reindent φ)) (takeUntilAndConsume c!"-}") (takeUntilAndConsume c!"-}") := fun s _ => by
  unfold takeUntilAndConsume
  rcases find_re (φ := φ) (c := '-') (k := ['}']) (by decide) (by decide) s with ⟨h1, h2⟩ | ⟨a, b, h1, h2, h3⟩
  · rw [h1, h2]; exact sm_err
  · rw [h1, h2]
    refine sm_ok rfl ⟨_, h3.symm⟩ ⟨reindent φ a ++ ['-', '}'], ?_⟩
    have : reindent φ ('-' :: '}' :: b) = '-' :: '}' :: reindent φ b := by
      rw [from_cons_none (by decide), from_cons_none (by decide)]
    rw [h3, List.append_assoc, List.append_assoc]
    show _ = reindent φ (a ++ '-' :: '}' :: b)
    rw [append (next_cons.2 (by decide)), this]; rfl

theorem s_comment : S φ I (T φ) comment comment :=
  s_alt (s_bind (s_preceded (s_tag (by decide)) (s_reStar fun _ => rfl)) fun v _ e => by
      cases e
      exact s_bind (s_index (LRel.map v) 0) fun _ _ h => by cases h; exact s_pure rfl)
    (s_pmap (s_preceded (s_tag (by decide)) s_untilClose) fun _ _ h => by cases h; rfl)

theorem e_moduleName (hφ : Ok φ I) : E φ I moduleName := e_dotted hφ
theorem e_allExport : E φ I allExport := e_pmap (s_tag (by decide)) fun _ => rfl
theorem e_functionExport : E φ I functionExport :=
  e_pmap (s_alt (e_pmap e_loName fun _ => rfl) (s_delimited (s_char (by decide)) e_operator (s_char (by decide)))) fun _ => rfl
theorem e_constructorSubsetExports (hφ : Ok φ I) : E φ I constructorSubsetExports :=
  s_pmap (s_sepNonemptyList hφ (s_tag (by decide)) (R := Fn id) (Q := Fn id) (e_pmap e_upName fun _ => rfl)) fun _ _ h => by
    rw [h.id]; rfl
theorem e_opt {p : Parser α} (h : E φ I p) : E φ I (opt p) := s_mono (s_opt h) fun h => by rw [h.fn, Option.map_id]; rfl
theorem e_constructorExports (hφ : Ok φ I) : E φ I constructorExports :=
  e_opt (s_delimited (s_char (by decide)) (s_alt e_allExport (e_constructorSubsetExports hφ)) (s_char (by decide)))
theorem e_typeExport (hφ : Ok φ I) : E φ I typeExport :=
  e_bind e_upName fun _ => e_bind (e_constructorExports hφ) fun _ => e_pure _
theorem e_subsetExport (hφ : Ok φ I) : E φ I subsetExport :=
  s_pmap (s_sepNonemptyList hφ (s_delimited (s_opt s_sn) (s_char (by decide)) (s_opt s_sn))
    (s_alt e_functionExport (e_typeExport hφ))) fun _ _ h => by rw [h.id]; rfl
theorem s_gap0 (hφ : Ok φ I) (ir : IR) : S φ I (In φ I) (gap 0 ir) (gap 0 ir) := by
  have := s_gap hφ hφ.mem ir
  rwa [hφ.zero] at this
theorem e_exports (hφ : Ok φ I) : E φ I exports :=
  s_delimited (s_preceded (s_char (by decide)) (s_opt (s_gap0 hφ _))) (s_alt e_allExport (e_subsetExport hφ))
    (s_terminated (s_opt (s_gap0 hφ _)) (s_char (by decide)))

theorem s_portModuleDeclaration (hφ : Ok φ I) : S φ I (T φ) portModuleDeclaration portModuleDeclaration :=
  s_bind (s_tag (by decide)) fun _ _ _ => s_bind (s_gap0 hφ _) fun _ _ _ => s_bind (s_tag (by decide)) fun _ _ _ =>
  s_bind (s_gap0 hφ _) fun _ _ _ => e_bind (e_moduleName hφ) fun _ => s_bind (s_gap0 hφ _) fun _ _ _ =>
  s_bind (s_tag (by decide)) fun _ _ _ => s_bind (s_gap0 hφ _) fun _ _ _ => e_bind (e_exports hφ) fun _ => s_pure rfl

theorem e_effectField : E φ I effectField :=
  e_bind e_loName fun _ => s_bind (s_opt e_spaces) fun _ _ _ => s_bind (s_char (by decide)) fun _ _ _ =>
  s_bind (s_opt e_spaces) fun _ _ _ => e_bind e_upName fun _ => e_pure _

theorem s_effectModuleDeclaration (hφ : Ok φ I) : S φ I (T φ) effectModuleDeclaration effectModuleDeclaration :=
  s_bind (s_tag (by decide)) fun _ _ _ => s_bind (s_gap0 hφ _) fun _ _ _ => s_bind (s_tag (by decide)) fun _ _ _ =>
  s_bind (s_gap0 hφ _) fun _ _ _ => e_bind (e_moduleName hφ) fun _ => s_bind (s_gap0 hφ _) fun _ _ _ =>
  s_bind (s_tag (by decide)) fun _ _ _ => s_bind (s_gap0 hφ _) fun _ _ _ =>
  s_bind (s_delimited (s_char (by decide)) (s_sepList hφ (s_tag (by decide)) e_effectField) (s_char (by decide))) fun _ _ h =>
  s_bind (s_gap0 hφ _) fun _ _ _ => s_bind (s_tag (by decide)) fun _ _ _ => s_bind (s_gap0 hφ _) fun _ _ _ =>
  e_bind (e_exports hφ) fun _ => by rw [h.id]; exact s_pure rfl

theorem s_moduleDeclaration (hφ : Ok φ I) : S φ I (T φ) moduleDeclaration moduleDeclaration :=
  s_bind (s_tag (by decide)) fun _ _ _ => s_bind (s_gap0 hφ _) fun _ _ _ => e_bind (e_moduleName hφ) fun _ =>
  s_bind (s_gap0 hφ _) fun _ _ _ => s_bind (s_tag (by decide)) fun _ _ _ => s_bind (s_gap0 hφ _) fun _ _ _ =>
  e_bind (e_exports hφ) fun _ => s_pure rfl

theorem s_importStatement (hφ : Ok φ I) : S φ I (T φ) importStatement importStatement :=
  s_bind (s_tag (by decide)) fun _ _ _ => s_bind e_spaces fun _ _ _ => e_bind (e_moduleName hφ) fun _ =>
  e_bind (e_opt (s_preceded (s_delimited e_spaces (s_tag (by decide)) e_spaces) e_upName)) fun _ =>
  e_bind (e_opt (s_preceded (s_delimited e_spaces (s_tag (by decide)) e_spaces) (e_exports hφ))) fun _ => s_pure rfl

theorem s_typeAliasDeclaration (hφ : Ok φ I) (h1 : I 1) (h2 : φ 1 = 1) :
    S φ I (T φ) typeAliasDeclaration typeAliasDeclaration := by
  have e0 := (tyOk_tyRec hφ).ty hφ.mem
  have e1 := s_gap hφ h1 .GTE
  have e2 := (tyOk_tyRec hφ).ann h1
  rw [hφ.zero] at e0
  rw [h2] at e1 e2
  exact s_bind (s_tag (by decide)) fun _ _ _ => s_bind e_spaces fun _ _ _ => s_bind (s_tag (by decide)) fun _ _ _ =>
    s_bind e_spaces fun _ _ _ => e_bind e0 fun _ => s_bind e_spaces fun _ _ _ => s_bind (s_char (by decide)) fun _ _ _ =>
    s_bind e1 fun _ _ _ => e_bind e2 fun _ => s_pure rfl

theorem s_typeDeclaration (hφ : Ok φ I) : S φ I (T φ) (typeDeclaration 0) (typeDeclaration 0) := by
  have e0 := (tyOk_tyRec hφ).ty hφ.mem
  rw [hφ.zero] at e0
  refine s_bind (s_tag (by decide)) fun _ _ _ => s_bind e_spaces fun _ _ _ => e_bind e0 fun _ =>
    s_bind (s_gap0 hφ _) fun _ _ hj => ?_
  obtain ⟨hj, rfl⟩ := hj
  exact s_bind (s_char (by decide)) fun _ _ _ => s_bind (s_gap hφ hj _) fun _ _ _ =>
    s_bind (s_sepNonemptyList hφ (s_delimited (s_gap hφ hj _) (s_char (by decide)) e_spaces)
      (s_typeConstructorF hφ (tyOk_tyRec hφ) hj)) fun _ _ h => by rw [h.id]; exact s_pure rfl

theorem s_portTypeDeclaration (hφ : Ok φ I) : S φ I (T φ) portTypeDeclaration portTypeDeclaration :=
  s_bind (s_tag (by decide)) fun _ _ _ => s_bind e_spaces fun _ _ _ => e_bind e_loName fun _ =>
  s_bind e_spaces fun _ _ _ => s_bind (s_char (by decide)) fun _ _ _ => s_bind (s_gap0 hφ _) fun _ _ hj => by
    obtain ⟨hj, rfl⟩ := hj
    exact s_bind ((tyOk_tyRec hφ).ann hj) fun _ _ h => by cases h; exact s_pure rfl

theorem s_portDeclaration (hφ : Ok φ I) : S φ I (T φ) portDeclaration portDeclaration :=
  s_bind (s_tag (by decide)) fun _ _ _ => s_bind e_spaces fun _ _ _ => e_bind e_loName fun _ =>
  s_bind (s_many0 hφ (s_preceded e_spaces e_loName)) fun _ _ h =>
  s_bind e_spaces fun _ _ _ => s_bind (s_char (by decide)) fun _ _ _ => s_bind (s_gap0 hφ _) fun _ _ hj => by
    obtain ⟨hj, rfl⟩ := hj
    exact s_bind (exOk_expression hφ hj) fun _ _ h' => by rw [h.id]; cases h'; exact s_pure rfl

theorem s_infixDeclaration : S φ I (T φ) infixDeclaration infixDeclaration :=
  e_bind (s_alt (e_pmap (s_tag (by decide)) fun _ => rfl) (s_alt (e_pmap (s_tag (by decide)) fun _ => rfl)
    (e_pmap (s_tag (by decide)) fun _ => rfl))) fun _ => s_bind e_spaces fun _ _ _ =>
  e_bind (s_mapRes e_digit fun v v' h => by
    cases h
    show ORel (Fn id) (parseI64 v) (parseI64 v)
    cases parseI64 v
    · exact .none
    · exact .some rfl) fun _ => s_bind e_spaces fun _ _ _ =>
  e_bind (s_alt e_loName e_operator) fun _ => s_pure rfl

theorem s_function0 (hφ : Ok φ I) : S φ I (T φ) (pmap (function 0) .Function) (pmap (function 0) .Function) := by
  have := s_functionF hφ (exOk_expression hφ) hφ.mem
  rw [hφ.zero] at this
  exact s_pmap this fun _ _ h => by cases h; rfl

theorem s_statement (hφ : Ok φ I) (h1 : I 1) (h2 : φ 1 = 1) : S φ I (T φ) statement statement :=
  s_alt (s_portModuleDeclaration hφ) <| s_alt (s_effectModuleDeclaration hφ) <| s_alt (s_moduleDeclaration hφ) <|
  s_alt (s_importStatement hφ) <| s_alt (s_typeAliasDeclaration hφ h1 h2) <| s_alt (s_typeDeclaration hφ) <|
  s_alt (s_portTypeDeclaration hφ) <| s_alt (s_portDeclaration hφ) <| s_alt (s_function0 hφ) <|
  s_alt s_infixDeclaration s_comment

theorem s_statements (hφ : Ok φ I) (h1 : I 1) (h2 : φ 1 = 1) :
    S φ I (Fn (List.map (statementMap (reindent φ)))) statements statements :=
  s_mono (s_delimited s_multispace0 (s_sepNonemptyList hφ s_multispace0 (s_statement hφ h1 h2)) s_multispace0)
    fun h => h.fn

theorem e_eof : E φ I eof := fun s _ => by
  rcases cases s with rfl | ⟨c, s, rfl, hc⟩ | ⟨n, r, rfl, hr⟩
  · exact sm_ok rfl (List.suffix_refl _) (List.suffix_refl _)
  · rw [from_cons_none hc]; exact sm_err
  · rw [newline n hr]; exact sm_err

theorem s_file (hφ : Ok φ I) (h1 : I 1) (h2 : φ 1 = 1) :
    S φ I (Fn (List.map (statementMap (reindent φ)))) file file := s_terminated (s_statements hφ h1 h2) e_eof

/-- The simulation of parsers that always answer. -/
theorem S.cases {f : α → β} {p : Parser α} {p' : Parser β} (h : S φ I (Fn f) p p') (hp : ∀ k, Good k p)
    (hp' : ∀ k, Good k p') {s : Str} (hs : D I s) :
    (∃ v r, p s = .ok v r ∧ p' (reindent φ s) = .ok (f v) (reindent φ r)) ∨ (p s = .err ∧ p' (reindent φ s) = .err) := by
  have tot : ∀ {γ : Type} {p : Parser γ}, (∀ k, Good k p) → ∀ s, ¬ Undef (p s) := by
    intro γ p hp s h
    rcases hp (s.length + 1) s (Nat.lt_succ_self _) with e | ⟨v, r', e, -⟩ <;> rw [e] at h <;>
      rcases h with h | h <;> cases h
  rcases h s hs with ⟨v, v', r, h1, h2, rfl, -⟩ | h | h | h
  · exact .inl ⟨v, r, h1, h2⟩
  · exact .inr h
  · exact absurd h (tot hp s)
  · exact absurd h (tot hp' _)

end Re
end ElmParser
