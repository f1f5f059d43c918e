import Verif.Proofs.Gap
import Verif.Proofs.Trail
import Verif.Spec.Spacing

/-! A simulation: every parser treats two texts alike that differ in their spacing and in their comments only. -/
namespace ElmParser
open Spec Spec.Spacing Spec.Rename
set_option linter.unusedSectionVars false

namespace Lk

variable {α β γ δ : Type} {K : Str → Str → Prop}

/-! ### Texts -/

/-- The texts are alike after some character. -/
def T (K : Str → Str → Prop) (s t : Str) : Prop := ∃ p, Like K p s t

theorem Like.t {p : Char} {s t : Str} (h : Like K p s t) : T K s t := ⟨p, h⟩

theorem nilL {p : Char} {t : Str} (h : Like K p [] t) : t = [] := by
  generalize e : ([] : Str) = s at h
  cases h <;> first | rfl | (simp [sp, List.replicate_succ] at e)
theorem nilR {p : Char} {s : Str} (h : Like K p s []) : s = [] := by
  generalize e : ([] : Str) = t at h
  cases h <;> first | rfl | (simp [sp, List.replicate_succ] at e)

/-- Both texts start with the same character. -/
theorem headL {p c : Char} {s t : Str} (h : Like K p (c :: s) t) : ∃ t', t = c :: t' := by
  generalize e : c :: s = x at h
  cases h with
  | nil => cases e
  | char => cases e; exact ⟨_, rfl⟩
  | spaces => simp only [sp, List.replicate_succ, List.cons_append, List.cons.injEq] at e ⊢; exact ⟨_, e.1.symm, rfl⟩
  | blank => cases e; exact ⟨_, rfl⟩
  | comment => cases e; exact ⟨_, rfl⟩
  | dashes => cases e; exact ⟨_, rfl⟩
  | block => cases e; exact ⟨_, rfl⟩
  | string => cases e; exact ⟨_, rfl⟩
  | longString => cases e; exact ⟨_, rfl⟩
  | character => cases e; exact ⟨_, rfl⟩
  | hexadecimal => cases e; exact ⟨_, rfl⟩

theorem next_iff {p : Char} {P : Char → Prop} {s t : Str} (h : Like K p s t) : Next P s ↔ Next P t := by
  cases s with
  | nil => rw [nilL h]
  | cons c s =>
    obtain ⟨t', rfl⟩ := headL h
    rw [next_cons, next_cons]

/-- A character that begins nothing special. -/
def Simple (c : Char) : Prop := c ≠ '"' ∧ c ≠ '\'' ∧ c ≠ '-' ∧ c ≠ '{' ∧ c ≠ '\n' ∧ c ≠ ' '
instance : DecidablePred Simple := fun _ => inferInstanceAs (Decidable (_ ∧ _))

theorem seen_ne {p c : Char} (h : c ≠ ' ') : seen p c = c := by simp [seen, h]

theorem simple {p c : Char} {s t : Str} (h : Like K p (c :: s) t) (hc : Simple c) : ∃ t', t = c :: t' ∧ Like K c s t' := by
  obtain ⟨h1, h2, h3, h4, h5, h6⟩ := hc
  generalize e : c :: s = x at h
  cases h with
  | nil => cases e
  | char _ _ _ h => cases e; rw [seen_ne h6] at h; exact ⟨_, rfl, h⟩
  | spaces =>
    simp only [sp, List.replicate_succ, List.cons_append, List.cons.injEq] at e
    exact absurd e.1 h6
  | blank => cases e; exact absurd rfl h5
  | comment => cases e; exact absurd rfl h3
  | dashes => cases e; exact absurd rfl h3
  | block => cases e; exact absurd rfl h4
  | string => cases e; exact absurd rfl h1
  | longString => cases e; exact absurd rfl h1
  | character => cases e; exact absurd rfl h2
  | hexadecimal => cases e; exact absurd rfl h2

/-- A space where the number of spaces is kept. -/
theorem space {p : Char} {s t : Str} (h : Like K p (' ' :: s) t) (hp : Kept p) : ∃ t', t = ' ' :: t' ∧ Like K p s t' := by
  generalize e : ' ' :: s = x at h
  cases h with
  | char _ _ _ h => cases e; rw [seen, if_pos ⟨rfl, hp⟩] at h; exact ⟨_, rfl, h⟩
  | spaces h => exact absurd hp h
  | _ => cases e

/-- A newline: a line end, or the start of blank lines. -/
theorem newline {p : Char} {s t : Str} (h : Like K p ('\n' :: s) t) :
    (∃ t', t = '\n' :: t' ∧ Like K '\n' s t') ∨
    ∃ k ks k' ks' r r', s = blankLines (k :: ks) ++ r ∧ t = '\n' :: blankLines (k' :: ks') ++ r' ∧ Like K '\n' r r' := by
  generalize e : '\n' :: s = x at h
  cases h with
  | char _ _ _ h => cases e; rw [seen_ne (by decide)] at h; exact .inl ⟨_, rfl, h⟩
  | blank h => cases e; exact .inr ⟨_, _, _, _, _, _, rfl, rfl, h⟩
  | spaces => simp [sp, List.replicate_succ] at e
  | _ => cases e

/-- A dash: one that stands alone, or the start of a comment. -/
theorem dash {p : Char} {s t : Str} (h : Like K p ('-' :: s) t) :
    (∃ t', t = '-' :: t' ∧ Next (· ≠ '-') s ∧ Like K '-' s t') ∨
    (∃ u v r r', ¬ OpChar p ∧ s = '-' :: u ++ r ∧ t = '-' :: '-' :: v ++ r' ∧ '\n' ∉ u ∧ '\n' ∉ v ∧
      Next (fun c => ¬ OpChar c) u ∧ Next (fun c => ¬ OpChar c) v ∧ Next (· = '\n') r ∧ K u v ∧ Like K p r r') ∨
    (∃ w r r', s = '-' :: w ++ r ∧ t = '-' :: '-' :: w ++ r' ∧ (∀ c ∈ w, c ≠ '"' ∧ c ≠ '\'' ∧ c ≠ '\n' ∧ c ≠ '{') ∧
      Next (· = '\n') r ∧ Like K p r r') := by
  generalize e : '-' :: s = x at h
  cases h with
  | char _ _ h0 h => cases e; rw [seen_ne (by decide)] at h; exact .inl ⟨_, rfl, h0 (.inl rfl), h⟩
  | comment h1 h2 h3 h4 h5 h6 h7 h8 => cases e; exact .inr (.inl ⟨_, _, _, _, h1, rfl, rfl, h2, h3, h4, h5, h6, h7, h8⟩)
  | dashes h1 h2 h3 => cases e; exact .inr (.inr ⟨_, _, _, rfl, rfl, h1, h2, h3⟩)
  | spaces => simp [sp, List.replicate_succ] at e
  | _ => cases e

/-- A brace: one that stands alone, or the start of a block comment. -/
theorem brace {p : Char} {s t : Str} (h : Like K p ('{' :: s) t) :
    (∃ t', t = '{' :: t' ∧ Next (· ≠ '-') s ∧ Like K '{' s t') ∨
    (∃ w w' r r', s = '-' :: w ++ '-' :: '}' :: r ∧ t = '{' :: '-' :: w' ++ '-' :: '}' :: r' ∧ w ≠ [] ∧ w' ≠ [] ∧
      Next (· ≠ '-') w ∧ Next (· ≠ '-') w' ∧ ¬ c!"-}" <:+: w ∧ ¬ c!"-}" <:+: w' ∧ K w w' ∧ Like K '}' r r') := by
  generalize e : '{' :: s = x at h
  cases h with
  | char _ _ h0 h => cases e; rw [seen_ne (by decide)] at h; exact .inl ⟨_, rfl, h0 (.inr rfl), h⟩
  | block h1 h2 h3 h4 h5 h6 h7 h8 => cases e; exact .inr ⟨_, _, _, _, rfl, rfl, h1, h2, h3, h4, h5, h6, h7, h8⟩
  | spaces => simp [sp, List.replicate_succ] at e
  | _ => cases e

/-- A quote. -/
theorem quote {p : Char} {s t : Str} (h : Like K p ('"' :: s) t) :
    (∃ w r r', s = w ++ '"' :: r ∧ t = '"' :: w ++ '"' :: r' ∧ StringText w ∧ (w = [] → Next (· ≠ '"') r) ∧ Like K '"' r r') ∨
    (∃ w r r', s = '"' :: '"' :: w ++ '"' :: '"' :: '"' :: r ∧ t = '"' :: '"' :: '"' :: w ++ '"' :: '"' :: '"' :: r' ∧
      '"' ∉ w ∧ Like K '"' r r') := by
  generalize e : '"' :: s = x at h
  cases h with
  | char h => cases e; exact absurd rfl h
  | string h1 h2 h3 => cases e; exact .inl ⟨_, _, _, rfl, rfl, h1, h2, h3⟩
  | longString h1 h2 => cases e; exact .inr ⟨_, _, _, rfl, rfl, h1, h2⟩
  | spaces => simp [sp, List.replicate_succ] at e
  | _ => cases e

/-- An apostrophe. -/
theorem apostrophe {p : Char} {s t : Str} (h : Like K p ('\'' :: s) t) :
    (∃ c r r', s = c :: '\'' :: r ∧ t = '\'' :: c :: '\'' :: r' ∧ Like K '\'' r r') ∨
    (∃ a b r r', s = '\\' :: 'x' :: a :: b :: '\'' :: r ∧ t = '\'' :: '\\' :: 'x' :: a :: b :: '\'' :: r' ∧ Like K '\'' r r') := by
  generalize e : '\'' :: s = x at h
  cases h with
  | char _ h => cases e; exact absurd rfl h
  | character h => cases e; exact .inl ⟨_, _, _, rfl, rfl, h⟩
  | hexadecimal h => cases e; exact .inr ⟨_, _, _, _, rfl, rfl, h⟩
  | spaces => simp [sp, List.replicate_succ] at e
  | _ => cases e

/-- At the end of a line it does not matter what the previous character is. -/
theorem atEnd {p : Char} {s t : Str} (h : Like K p s t) (hs : Next (· = '\n') s) (q : Char) : Like K q s t := by
  cases s with
  | nil => rw [nilL h]; exact .nil
  | cons c s =>
    cases next_cons.1 hs
    rcases newline h with ⟨t', rfl, g⟩ | ⟨k, ks, k', ks', r, r', rfl, rfl, g⟩
    · exact .char (by decide) (by decide) (by simp) (by rw [seen_ne (by decide)]; exact g)
    · exact .blank g

/-- The same text without anything special before the same line end. -/
theorem line {w s t : Str} (hw : ∀ c ∈ w, c ≠ '"' ∧ c ≠ '\'' ∧ c ≠ '\n' ∧ c ≠ '{') (hs : Next (· = '\n') s)
    {p : Char} (h : Like K p s t) (q : Char) : Like K q (w ++ s) (w ++ t) := by
  induction w generalizing q with
  | nil => exact atEnd h hs q
  | cons c w ih =>
    have ih := ih fun c hc => hw c (List.mem_cons_of_mem _ hc)
    obtain ⟨h1, h2, h3, h4⟩ := hw c (by simp)
    by_cases e : c = '-' ∧ ¬ Next (· ≠ '-') w
    · obtain ⟨rfl, e⟩ := e
      cases w with
      | nil => exact absurd (next_nil _) e
      | cons d w =>
        rw [next_cons] at e
        cases Classical.not_not.1 e
        exact .dashes (fun c hc => hw c (by simp [hc])) hs (atEnd h hs q)
    · refine .char h1 h2 (fun hc => ?_) (ih _)
      rcases hc with rfl | rfl
      · have := Classical.not_not.1 fun hn => e ⟨rfl, hn⟩
        cases w with
        | nil =>
          intro d r hd
          have hd : s = d :: r := hd
          rw [hs d r hd]
          decide
        | cons d w => exact next_cons.2 (next_cons (P := fun c => c ≠ '-') |>.1 this)
      · exact absurd rfl h4

/-! ### The simulation -/

/-- The two runs agree: both fail, or both succeed with related values and rests that are alike. -/
inductive Sm (K : Str → Str → Prop) (R : α → β → Prop) (s s' : Str) : Res α → Res β → Prop
  | ok {v v' r r'} : R v v' → T K r r' → r <:+ s → r' <:+ s' → (r.length = s.length ↔ r'.length = s'.length) →
      Sm K R s s' (.ok v r) (.ok v' r')
  | err : Sm K R s s' .err .err
  | undefL {x y} : Undef x → Sm K R s s' x y
  | undefR {x y} : Undef y → Sm K R s s' x y

/-- The parsers `p` and `p'` agree. -/
def S (K : Str → Str → Prop) (R : α → β → Prop) (p : Parser α) (p' : Parser β) : Prop :=
  ∀ s s' : Str, T K s s' → Sm K R s s' (p s) (p' s')

/-- The values do not matter. -/
def Any : α → β → Prop := fun _ _ => True
/-- The parsers agree and give the same values. -/
abbrev E (K : Str → Str → Prop) (p p' : Parser α) : Prop := S K Eq p p'
/-- The parsers agree, with any values. -/
abbrev A (K : Str → Str → Prop) (p : Parser α) (p' : Parser β) : Prop := S K Any p p'

variable {R : α → β → Prop} {Q : γ → δ → Prop}

theorem Sm.mono {R' : α → β → Prop} {s s' t t' : Str} {x : Res α} {y : Res β} (h : Sm K R t t' x y)
    (hR : ∀ {v v'}, R v v' → R' v v') (h1 : t <:+ s) (h2 : t' <:+ s')
    (h3 : t.length = s.length ↔ t'.length = s'.length) : Sm K R' s s' x y := by
  have l1 := h1.length_le
  have l2 := h2.length_le
  cases h with
  | ok h a k1 k2 k3 =>
    have := k1.length_le
    have := k2.length_le
    exact .ok (hR h) a (k1.trans h1) (k2.trans h2) (by omega)
  | err => exact .err
  | undefL h => exact .undefL h
  | undefR h => exact .undefR h

theorem sm_same {s s' : Str} {v : α} {v' : β} (h : R v v') (hs : T K s s') : Sm K R s s' (.ok v s) (.ok v' s') :=
  .ok h hs (List.suffix_refl _) (List.suffix_refl _) (by simp)

theorem sm_ok {s s' r r' : Str} {v : α} {v' : β} (h : R v v') (hr : T K r r') {u u' : Str} (e : s = u ++ r)
    (e' : s' = u' ++ r') (hu : u ≠ []) (hu' : u' ≠ []) : Sm K R s s' (.ok v r) (.ok v' r') := by
  have l1 := List.length_pos_iff.2 hu
  have l2 := List.length_pos_iff.2 hu'
  refine .ok h hr ⟨u, e.symm⟩ ⟨u', e'.symm⟩ ?_
  rw [e, e', List.length_append, List.length_append]; omega

theorem sm_andThen {s s' : Str} {x : Res α} {y : Res β} {f : α → Str → Res γ} {g : β → Str → Res δ} (h : Sm K R s s' x y)
    (hf : ∀ v v' r r', R v v' → T K r r' → Sm K Q r r' (f v r) (g v' r')) :
    Sm K Q s s' (x.andThen f) (y.andThen g) := by
  cases h with
  | @ok v v' r r' h a k1 k2 k3 => exact (hf v v' r r' h a).mono id k1 k2 k3
  | err => exact .err
  | undefL h => exact .undefL (undef_andThen h)
  | undefR h => exact .undefR (undef_andThen h)

theorem s_mono {R' : α → β → Prop} {p : Parser α} {p' : Parser β} (h : S K R p p') (hR : ∀ {v v'}, R v v' → R' v v') :
    S K R' p p' := fun s s' hs => (h s s' hs).mono hR (List.suffix_refl _) (List.suffix_refl _) (by simp)
theorem s_any {p : Parser α} {p' : Parser β} (h : S K R p p') : A K p p' := s_mono h fun _ => trivial
theorem s_pure {v : α} {v' : β} (h : R v v') : S K R (pure v) (pure v') := fun _ _ hs => sm_same h hs
theorem s_fail : S K R Parser.fail Parser.fail := fun _ _ _ => .err

theorem s_bind {p : Parser α} {p' : Parser β} {q : α → Parser γ} {q' : β → Parser δ} (hp : S K R p p')
    (hq : ∀ v v', R v v' → S K Q (q v) (q' v')) : S K Q (p >>= q) (p' >>= q') :=
  fun s s' hs => sm_andThen (hp s s' hs) fun v v' r r' h k => hq v v' h r r' k
/-- The values are the same. -/
theorem e0 {p p' : Parser α} {q : α → Parser γ} {q' : α → Parser δ} (hp : E K p p')
    (hq : ∀ v, S K Q (q v) (q' v)) : S K Q (p >>= q) (p' >>= q') :=
  s_bind hp fun v _ h => by cases h; exact hq v
/-- The values are not used. -/
theorem a0 {p : Parser α} {p' : Parser β} {q : α → Parser γ} {q' : β → Parser δ} (hp : S K R p p')
    (hq : ∀ v v', S K Q (q v) (q' v')) : S K Q (p >>= q) (p' >>= q') :=
  s_bind hp fun v v' _ => hq v v'

theorem s_alt {p q : Parser α} {p' q' : Parser β} (hp : S K R p p') (hq : S K R q q') :
    S K R (p </> q) (p' </> q') := fun s s' hs => by
  simp only [alt_apply]
  have h := hp s s' hs
  revert h
  generalize p s = x, p' s' = y
  intro h
  cases h with
  | ok h a k1 k2 k3 => exact .ok h a k1 k2 k3
  | err => exact hq s s' hs
  | undefL h =>
    rcases h with rfl | rfl
    · exact .undefL (.inl rfl)
    · exact .undefL (.inr rfl)
  | undefR h =>
    rcases h with rfl | rfl
    · exact .undefR (.inl rfl)
    · exact .undefR (.inr rfl)

theorem s_pmap {p : Parser α} {p' : Parser β} {f : α → γ} {g : β → δ} (hp : S K R p p')
    (h : ∀ v v', R v v' → Q (f v) (g v')) : S K Q (pmap p f) (pmap p' g) := s_bind hp fun v v' k => s_pure (h v v' k)
theorem e_pmap {p p' : Parser α} (f : α → γ) (hp : E K p p') : E K (pmap p f) (pmap p' f) :=
  s_pmap hp fun _ _ h => by rw [h]
theorem s_opt {p : Parser α} {p' : Parser β} (hp : S K R p p') : S K (Both R) (opt p) (opt p') :=
  s_alt (s_pmap hp fun _ _ h => .some h) (s_pure .none)

theorem both_eq {v v' : Option α} (h : Both Eq v v') : v = v' := by
  cases h with
  | none => rfl
  | some h => rw [h]
theorem each_eq {v v' : List α} (h : Each Eq v v') : v = v' := by
  induction h with
  | nil => rfl
  | cons h _ ih => rw [h, ih]
theorem e_opt {p p' : Parser α} (h : E K p p') : E K (opt p) (opt p') := s_mono (s_opt h) fun h => both_eq h
theorem e_mapRes {p p' : Parser α} (f : α → Option γ) (hp : E K p p') : E K (mapRes p f) (mapRes p' f) :=
  e0 hp fun v => by
    cases f v with
    | none => exact s_fail
    | some w => exact s_pure rfl

theorem s_preceded {p : Parser α} {p' : Parser β} {q : Parser γ} {q' : Parser δ} (hp : S K R p p')
    (hq : S K Q q q') : S K Q (preceded p q) (preceded p' q') := a0 hp fun _ _ => hq
theorem s_terminated {p : Parser α} {p' : Parser β} {q : Parser γ} {q' : Parser δ} (hp : S K R p p')
    (hq : S K Q q q') : S K R (terminated p q) (terminated p' q') := s_bind hp fun _ _ h => a0 hq fun _ _ => s_pure h
theorem s_delimited {ε ζ : Type} {P : ε → ζ → Prop} {p : Parser α} {p' : Parser β} {q : Parser γ} {q' : Parser δ}
    {r : Parser ε} {r' : Parser ζ} (hp : S K R p p') (hq : S K Q q q') (hr : S K P r r') :
    S K Q (delimited p q r) (delimited p' q' r') := a0 hp fun _ _ => s_terminated hq hr

theorem eq_iff_length {r s : Str} (h : r <:+ s) : r = s ↔ r.length = s.length :=
  ⟨fun e => by rw [e], h.eq_of_length⟩

theorem s_many0Loop {p : Parser α} {p' : Parser β} (hp : S K R p p') (n m : Nat) (s s' : Str)
    (hs : T K s s') : Sm K (Each R) s s' (many0Loop p n s) (many0Loop p' m s') := by
  induction n generalizing m s s' with
  | zero => exact .undefL (.inl rfl)
  | succ n ih =>
    cases m with
    | zero => exact .undefR (.inl rfl)
    | succ m =>
    simp only [many0Loop]
    have done : Sm K (Each R) s s' (.ok [] s) (.ok [] s') := sm_same .nil hs
    have h := hp s s' hs
    revert h
    generalize p s = x, p' s' = y
    intro h
    cases h with
    | @ok v v' r r' h a k1 k2 k3 =>
      dsimp only
      by_cases e : r = s
      · have e' : r' = s' := (eq_iff_length k2).2 (k3.1 ((eq_iff_length k1).1 e))
        rw [if_pos e, if_pos e']; exact done
      · have e' : r' ≠ s' := fun e' => e ((eq_iff_length k1).2 (k3.2 ((eq_iff_length k2).1 e')))
        rw [if_neg e, if_neg e']
        refine (sm_andThen (Q := Each R) (ih m r r' a) fun vs vs' q q' hh b => ?_).mono id k1 k2 k3
        exact sm_same (.cons h hh) b
    | err => exact done
    | undefL h =>
      rcases h with rfl | rfl
      · exact .undefL (.inl rfl)
      · exact .undefL (.inr rfl)
    | undefR h =>
      rcases h with rfl | rfl
      · exact .undefR (.inl rfl)
      · exact .undefR (.inr rfl)

theorem s_many0 {p : Parser α} {p' : Parser β} (hp : S K R p p') : S K (Each R) (many0 p) (many0 p') :=
  fun s s' hs => s_many0Loop hp _ _ s s' hs
theorem s_many1 {p : Parser α} {p' : Parser β} (hp : S K R p p') : S K (Each R) (many1 p) (many1 p') :=
  s_bind hp fun _ _ h => s_bind (s_many0 hp) fun _ _ hh => s_pure (.cons h hh)
theorem e_many0 {p p' : Parser α} (hp : E K p p') : E K (many0 p) (many0 p') := s_mono (s_many0 hp) fun h => each_eq h
theorem e_many1 {p p' : Parser α} (hp : E K p p') : E K (many1 p) (many1 p') := s_mono (s_many1 hp) fun h => each_eq h

theorem sm_sepLoop {sep : Parser α} {sep' : Parser β} {p : Parser γ} {p' : Parser δ} (hsep : S K R sep sep')
    (hp : S K Q p p') (n m : Nat) (s s' : Str) (hs : T K s s') :
    Sm K (Each Q) s s' (sepLoop sep p n s) (sepLoop sep' p' m s') := by
  induction n generalizing m s s' with
  | zero => exact .undefL (.inl rfl)
  | succ n ih =>
    cases m with
    | zero => exact .undefR (.inl rfl)
    | succ m =>
    simp only [sepLoop]
    have done : Sm K (Each Q) s s' (.ok [] s) (.ok [] s') := sm_same .nil hs
    have h := hsep s s' hs
    revert h
    generalize sep s = x, sep' s' = y
    intro h
    cases h with
    | @ok v v' r r' h a k1 k2 k3 =>
      dsimp only
      simp only [k3]
      split
      · exact done
      · have h := hp r r' a
        revert h
        generalize p r = x, p' r' = y
        intro h
        cases h with
        | @ok v v' q q' h b l1 l2 l3 =>
          dsimp only
          simp only [l3]
          have := k1.length_le; have := k2.length_le; have := l1.length_le; have := l2.length_le
          split
          · exact done
          · refine (sm_andThen (Q := Each Q) (ih m q q' b) fun vs vs' q q' hh b => ?_).mono
              id (l1.trans k1) (l2.trans k2) (by omega)
            exact sm_same (.cons h hh) b
        | err => exact done
        | undefL h =>
          rcases h with rfl | rfl
          · exact .undefL (.inl rfl)
          · exact .undefL (.inr rfl)
        | undefR h =>
          rcases h with rfl | rfl
          · exact .undefR (.inl rfl)
          · exact .undefR (.inr rfl)
    | err => exact done
    | undefL h =>
      rcases h with rfl | rfl
      · exact .undefL (.inl rfl)
      · exact .undefL (.inr rfl)
    | undefR h =>
      rcases h with rfl | rfl
      · exact .undefR (.inl rfl)
      · exact .undefR (.inr rfl)

/-- The tail of a list after its first element. -/
theorem sm_sepTail {sep : Parser α} {sep' : Parser β} {p : Parser γ} {p' : Parser δ} (hsep : S K R sep sep')
    (hp : S K Q p p') {s s' : Str} {x : Res γ} {y : Res δ} (h : Sm K Q s s' x y) :
    Sm K (Each Q) s s'
      (x.andThen fun v r => if r.length = s.length then .err
        else (sepLoop sep p (r.length + 1) r).andThen fun vs r' => .ok (v :: vs) r')
      (y.andThen fun v r => if r.length = s'.length then .err
        else (sepLoop sep' p' (r.length + 1) r).andThen fun vs r' => .ok (v :: vs) r') := by
  cases h with
  | @ok v v' r r' h a k1 k2 k3 =>
    simp only [andThen_ok, k3]
    split
    · exact .err
    · refine (sm_andThen (Q := Each Q) (sm_sepLoop hsep hp _ _ r r' a) fun vs vs' q q' hh b => ?_).mono id k1 k2 k3
      exact sm_same (.cons h hh) b
  | err => exact .err
  | undefL h => exact .undefL (undef_andThen h)
  | undefR h => exact .undefR (undef_andThen h)

theorem s_sepNonemptyList {sep : Parser α} {sep' : Parser β} {p : Parser γ} {p' : Parser δ} (hsep : S K R sep sep')
    (hp : S K Q p p') : S K (Each Q) (sepNonemptyList sep p) (sepNonemptyList sep' p') :=
  fun s s' hs => sm_sepTail hsep hp (hp s s' hs)

theorem s_sepList {sep : Parser α} {sep' : Parser β} {p : Parser γ} {p' : Parser δ} (hsep : S K R sep sep')
    (hp : S K Q p p') : S K (Each Q) (sepList sep p) (sepList sep' p') := fun s s' hs => by
  have h := hp s s' hs
  have h' := sm_sepTail hsep hp h
  unfold sepList
  revert h h'
  generalize p s = x, p' s' = y
  intro h h'
  cases h with
  | ok => exact h'
  | err => exact sm_same .nil hs
  | undefL h =>
    rcases h with rfl | rfl
    · exact .undefL (.inl rfl)
    · exact .undefL (.inr rfl)
  | undefR h =>
    rcases h with rfl | rfl
    · exact .undefR (.inl rfl)
    · exact .undefR (.inr rfl)
theorem e_sepNonemptyList {sep : Parser α} {sep' : Parser β} {p p' : Parser γ} (hsep : S K R sep sep')
    (hp : E K p p') : E K (sepNonemptyList sep p) (sepNonemptyList sep' p') :=
  s_mono (s_sepNonemptyList hsep hp) fun h => each_eq h
theorem e_sepList {sep : Parser α} {sep' : Parser β} {p p' : Parser γ} (hsep : S K R sep sep')
    (hp : E K p p') : E K (sepList sep p) (sepList sep' p') :=
  s_mono (s_sepList hsep hp) fun h => each_eq h

theorem e_index (v : List α) (i : Nat) : E K (index v i) (index v i) := fun s s' hs => by
  unfold index
  split
  · exact sm_same rfl hs
  · exact .undefL (.inr rfl)

end Lk
end ElmParser
