import Verif.Proofs.SpacingParsers
import Verif.Spec.Shut

/-! A simulation: no parser looks beyond a closing bracket that closes nothing it has seen. -/
namespace ElmParser
open Spec
set_option linter.unusedSectionVars false

namespace Sh

variable {α β γ : Type}

/-! ### Texts -/

/-- A character that begins nothing special. -/
def Soft (c : Char) : Prop := ¬ Bracket c ∧ c ≠ '"' ∧ c ≠ '\'' ∧ c ≠ '-'
instance : DecidablePred Soft := fun _ => inferInstanceAs (Decidable (_ ∧ _))

theorem partners_open {o c : Char} (h : Partners o c) : o = '(' ∨ o = '[' ∨ o = '{' := by
  simp only [Partners, List.mem_cons, Prod.mk.injEq, List.not_mem_nil, or_false] at h
  rcases h with ⟨h, -⟩ | ⟨h, -⟩ | ⟨h, -⟩ <;> simp [h]
theorem partners_close {o c : Char} (h : Partners o c) : Close c := by
  simp only [Partners, List.mem_cons, Prod.mk.injEq, List.not_mem_nil, or_false] at h
  rcases h with ⟨-, rfl⟩ | ⟨-, rfl⟩ | ⟨-, rfl⟩ <;> decide
theorem partners_bracket {o c : Char} (h : Partners o c) : Bracket o := by
  rcases partners_open h with rfl | rfl | rfl <;> decide

theorem soft {c : Char} {s : Str} (h : Shut (c :: s)) (hc : Soft c) : Shut s := by
  obtain ⟨h1, h2, h3, h4⟩ := hc
  cases h with
  | char _ _ _ _ _ h => exact h
  | pair h => exact absurd (partners_bracket h) h1
  | string => exact absurd rfl h2
  | longString => exact absurd rfl h2
  | character => exact absurd rfl h3
  | comment => exact absurd rfl h4

/-- A dash: one that stands alone, or the start of a comment. -/
theorem dash {s : Str} (h : Shut ('-' :: s)) :
    (Next (· ≠ '-') s ∧ ¬ c!"--" <+: s ∧ Shut s) ∨
    ∃ w t, s = '-' :: (w ++ '\n' :: t) ∧ '\n' ∉ w ∧ Next (fun c => ¬ OpChar c) w ∧ Shut ('\n' :: t) := by
  cases h with
  | char _ _ _ h1 h2 h => exact .inl ⟨h1 rfl, h2 (by decide), h⟩
  | pair h => exact absurd (partners_bracket h) (by decide)
  | comment h1 h2 h3 => exact .inr ⟨_, _, rfl, h1, h2, h3⟩

/-- An opening bracket. -/
theorem opened {o : Char} {s : Str} (h : Shut (o :: s)) (ho : Bracket o) :
    ∃ c a t, Partners o c ∧ s = a ++ c :: t ∧ Shut a ∧ Shut t := by
  cases h with
  | char h => exact absurd ho h
  | pair h1 h2 h3 => exact ⟨_, _, _, h1, rfl, h2, h3⟩
  | string => exact absurd ho (by decide)
  | longString => exact absurd ho (by decide)
  | character => exact absurd ho (by decide)
  | comment => exact absurd ho (by decide)

theorem quote {s : Str} (h : Shut ('"' :: s)) :
    (∃ w t, s = w ++ '"' :: t ∧ StringText w ∧ (w = [] → Next (· ≠ '"') t) ∧ Shut t) ∨
    ∃ w t, s = '"' :: '"' :: (w ++ '"' :: '"' :: '"' :: t) ∧ '"' ∉ w ∧ Shut t := by
  cases h with
  | char _ h => exact absurd rfl h
  | pair h => exact absurd (partners_bracket h) (by decide)
  | string h1 h2 h3 => exact .inl ⟨_, _, rfl, h1, h2, h3⟩
  | longString h1 h2 => exact .inr ⟨_, _, rfl, h1, h2⟩

theorem apostrophe {s : Str} (h : Shut ('\'' :: s)) : ∃ w c t, s = w ++ '\'' :: t ∧ CharText w c ∧ Shut t := by
  cases h with
  | char _ _ h => exact absurd rfl h
  | pair h => exact absurd (partners_bracket h) (by decide)
  | character h1 h2 => exact ⟨_, _, _, rfl, h1, h2⟩

/-! ### The simulation -/

/-- The two runs agree: both fail, or both succeed with the same value, and have not reached the bracket `x`. -/
inductive Sm (x : Char) (r r' : Str) : Res α → Res α → Prop
  | ok {v u} : Shut u → Sm x r r' (.ok v (u ++ x :: r)) (.ok v (u ++ x :: r'))
  | err : Sm x r r' .err .err
  | undefL {a b} : Undef a → Sm x r r' a b
  | undefR {a b} : Undef b → Sm x r r' a b

/-- What stands after a closing bracket does not matter to the parsers. -/
def S (p q : Parser α) : Prop :=
  ∀ u x r r', Shut u → Close x → Sm x r r' (p (u ++ x :: r)) (q (u ++ x :: r'))

theorem sm_andThen {x : Char} {r r' : Str} {a b : Res α} {f g : α → Str → Res β} (h : Sm x r r' a b)
    (hf : ∀ v u, Shut u → Sm x r r' (f v (u ++ x :: r)) (g v (u ++ x :: r'))) :
    Sm x r r' (a.andThen f) (b.andThen g) := by
  cases h with
  | ok h => exact hf _ _ h
  | err => exact .err
  | undefL h => exact .undefL (undef_andThen h)
  | undefR h => exact .undefR (undef_andThen h)

theorem s_pure (v : α) : S (pure v) (pure v) := fun _ _ _ _ hu _ => .ok hu
theorem s_fail : S (Parser.fail : Parser α) Parser.fail := fun _ _ _ _ _ _ => .err
theorem s_congr {p p1 q q1 : Parser α} (h : S p1 q1) (e : ∀ s, p s = p1 s) (e' : ∀ s, q s = q1 s) : S p q :=
  fun u x r r' hu hx => by rw [e, e']; exact h u x r r' hu hx

theorem s_bind {p q : Parser α} {f g : α → Parser β} (hp : S p q) (hf : ∀ v, S (f v) (g v)) : S (p >>= f) (q >>= g) :=
  fun u x r r' hu hx => sm_andThen (hp u x r r' hu hx) fun v u hu => hf v u x r r' hu hx

theorem s_alt {p q p' q' : Parser α} (hp : S p p') (hq : S q q') : S (p </> q) (p' </> q') := fun u x r r' hu hx => by
  simp only [alt_apply]
  have h := hp u x r r' hu hx
  revert h
  generalize p (u ++ x :: r) = a, p' (u ++ x :: r') = b
  intro h
  cases h with
  | ok h => exact .ok h
  | err => exact hq u x r r' hu hx
  | undefL h => rcases h with rfl | rfl <;> exact .undefL (by simp [Undef])
  | undefR h => rcases h with rfl | rfl <;> exact .undefR (by simp [Undef])

theorem s_pmap {p q : Parser α} (f : α → β) (h : S p q) : S (pmap p f) (pmap q f) := s_bind h fun v => s_pure (f v)
theorem s_opt {p q : Parser α} (h : S p q) : S (opt p) (opt q) := s_alt (s_pmap some h) (s_pure none)
theorem s_mapRes {p q : Parser α} (f : α → Option β) (h : S p q) : S (mapRes p f) (mapRes q f) := s_bind h fun v => by
  cases f v with
  | none => exact s_fail
  | some w => exact s_pure w
theorem s_preceded {p p' : Parser α} {q q' : Parser β} (hp : S p p') (hq : S q q') : S (preceded p q) (preceded p' q') :=
  s_bind hp fun _ => hq
theorem s_terminated {p p' : Parser α} {q q' : Parser β} (hp : S p p') (hq : S q q') :
    S (terminated p q) (terminated p' q') := s_bind hp fun _ => s_bind hq fun _ => s_pure _
theorem s_delimited {p p' : Parser α} {q q' : Parser β} {t t' : Parser γ} (hp : S p p') (hq : S q q') (ht : S t t') :
    S (delimited p q t) (delimited p' q' t') := s_bind hp fun _ => s_terminated hq ht
theorem s_index (v : List α) (i : Nat) : S (index v i) (index v i) := fun u x r r' hu _ => by
  unfold index
  cases v[i]? with
  | some a => exact .ok hu
  | none => exact .undefL (.inr rfl)

theorem rest_eq {u w : Str} {x : Char} (r r' : Str) : u ++ x :: r = w ++ x :: r ↔ u ++ x :: r' = w ++ x :: r' := by
  rw [List.append_cancel_right_eq, List.append_cancel_right_eq]
theorem rest_length {u w : Str} {x : Char} (r r' : Str) :
    (u ++ x :: r).length = (w ++ x :: r).length ↔ (u ++ x :: r').length = (w ++ x :: r').length := by
  simp only [List.length_append, List.length_cons]; omega

theorem sm_many0Loop {p q : Parser α} (hp : S p q) (n m : Nat) {u : Str} {x : Char} (r r' : Str) (hu : Shut u)
    (hx : Close x) : Sm x r r' (many0Loop p n (u ++ x :: r)) (many0Loop q m (u ++ x :: r')) := by
  induction n generalizing m u with
  | zero => exact .undefL (.inl rfl)
  | succ n ih =>
    cases m with
    | zero => exact .undefR (.inl rfl)
    | succ m =>
    simp only [many0Loop]
    have h := hp u x r r' hu hx
    revert h
    generalize p (u ++ x :: r) = a, q (u ++ x :: r') = b
    intro h
    cases h with
    | @ok v w hw =>
      dsimp only
      simp only [rest_eq r r']
      split
      · exact .ok hu
      · exact sm_andThen (ih m hw) fun vs t ht => .ok ht
    | err => exact .ok hu
    | undefL h => rcases h with rfl | rfl <;> exact .undefL (by simp [Undef])
    | undefR h => rcases h with rfl | rfl <;> exact .undefR (by simp [Undef])

theorem s_many0 {p q : Parser α} (hp : S p q) : S (many0 p) (many0 q) :=
  fun _ _ r r' hu hx => sm_many0Loop hp _ _ r r' hu hx
theorem s_many1 {p q : Parser α} (hp : S p q) : S (many1 p) (many1 q) :=
  s_bind hp fun _ => s_bind (s_many0 hp) fun _ => s_pure _

theorem sm_sepLoop {sep sep' : Parser β} {p q : Parser α} (hsep : S sep sep') (hp : S p q) (n m : Nat) {u : Str} {x : Char}
    (r r' : Str) (hu : Shut u) (hx : Close x) :
    Sm x r r' (sepLoop sep p n (u ++ x :: r)) (sepLoop sep' q m (u ++ x :: r')) := by
  induction n generalizing m u with
  | zero => exact .undefL (.inl rfl)
  | succ n ih =>
    cases m with
    | zero => exact .undefR (.inl rfl)
    | succ m =>
    simp only [sepLoop]
    have h := hsep u x r r' hu hx
    revert h
    generalize sep (u ++ x :: r) = a, sep' (u ++ x :: r') = b
    intro h
    cases h with
    | @ok v w hw =>
      dsimp only
      simp only [rest_length r r']
      split
      · exact .ok hu
      · have h := hp w x r r' hw hx
        revert h
        generalize p (w ++ x :: r) = a, q (w ++ x :: r') = b
        intro h
        cases h with
        | @ok v t ht =>
          dsimp only
          simp only [rest_length r r']
          split
          · exact .ok hu
          · exact sm_andThen (ih m ht) fun vs t ht => .ok ht
        | err => exact .ok hu
        | undefL h => rcases h with rfl | rfl <;> exact .undefL (by simp [Undef])
        | undefR h => rcases h with rfl | rfl <;> exact .undefR (by simp [Undef])
    | err => exact .ok hu
    | undefL h => rcases h with rfl | rfl <;> exact .undefL (by simp [Undef])
    | undefR h => rcases h with rfl | rfl <;> exact .undefR (by simp [Undef])

theorem s_sepNonemptyList {sep sep' : Parser β} {p q : Parser α} (hsep : S sep sep') (hp : S p q) :
    S (sepNonemptyList sep p) (sepNonemptyList sep' q) := fun u x r r' hu hx => by
  unfold sepNonemptyList
  refine sm_andThen (hp u x r r' hu hx) fun v w hw => ?_
  simp only [rest_length r r']
  split
  · exact .err
  · exact sm_andThen (sm_sepLoop hsep hp _ _ r r' hw hx) fun vs t ht => .ok ht

theorem s_sepList {sep sep' : Parser β} {p q : Parser α} (hsep : S sep sep') (hp : S p q) :
    S (sepList sep p) (sepList sep' q) := fun u x r r' hu hx => by
  unfold sepList
  have h := hp u x r r' hu hx
  revert h
  generalize p (u ++ x :: r) = a, q (u ++ x :: r') = b
  intro h
  cases h with
  | @ok v w hw =>
    dsimp only
    simp only [rest_length r r']
    split
    · exact .err
    · exact sm_andThen (sm_sepLoop hsep hp _ _ r r' hw hx) fun vs t ht => .ok ht
  | err => exact .ok hu
  | undefL h => rcases h with rfl | rfl <;> exact .undefL (by simp [Undef])
  | undefR h => rcases h with rfl | rfl <;> exact .undefR (by simp [Undef])

/-! ### Tokens -/

theorem soft_close {c x : Char} (h : Soft c) (hx : Close x) : x ≠ c := by
  rintro rfl
  simp only [Close, List.mem_cons, List.not_mem_nil, or_false] at hx
  rcases hx with rfl | rfl | rfl <;> exact h.1 (by decide)
theorem close_ne {x : Char} (hx : Close x) {P : Char → Prop} (h : ¬ P ')' ∧ ¬ P ']' ∧ ¬ P '}') : ¬ P x := by
  simp only [Close, List.mem_cons, List.not_mem_nil, or_false] at hx
  rcases hx with rfl | rfl | rfl
  · exact h.1
  · exact h.2.1
  · exact h.2.2

theorem s_char {c : Char} (hc : Soft c) : S (char c) (char c) := fun u x r r' hu hx => by
  cases u with
  | nil => simp only [List.nil_append]; rw [char_cons_ne _ (soft_close hc hx), char_cons_ne _ (soft_close hc hx)]; exact .err
  | cons d u =>
    by_cases e : d = c
    · subst e; simp only [List.cons_append]; rw [char_cons, char_cons]; exact .ok (soft hu hc)
    · simp only [List.cons_append]; rw [char_cons_ne _ e, char_cons_ne _ e]; exact .err

theorem s_tag {k : Str} (hk : ∀ c ∈ k, Soft c) : S (tag k) (tag k) := fun u x r r' hu hx => by
  have key : ∀ k : Str, (∀ c ∈ k, Soft c) → ∀ u, Shut u → (∃ w, Shut w ∧ stripPrefix k (u ++ x :: r) = some (w ++ x :: r) ∧
      stripPrefix k (u ++ x :: r') = some (w ++ x :: r')) ∨
      (stripPrefix k (u ++ x :: r) = none ∧ stripPrefix k (u ++ x :: r') = none) := by
    intro k hk
    induction k with
    | nil => intro u hu; exact .inl ⟨u, hu, by rw [stripPrefix], by rw [stripPrefix]⟩
    | cons c k ih =>
      intro u hu
      cases u with
      | nil => right; simp [stripPrefix, soft_close (hk c (by simp)) hx]
      | cons d u =>
        by_cases e : d = c
        · subst e
          simp only [List.cons_append, stripPrefix, if_true]
          exact ih (fun c hc => hk c (List.mem_cons_of_mem _ hc)) u (soft hu (hk _ (by simp)))
        · right; simp [stripPrefix, e]
  unfold tag
  rcases key k hk u hu with ⟨w, hw, e, e'⟩ | ⟨e, e'⟩
  · rw [e, e']; exact .ok hw
  · rw [e, e']; exact .err

theorem s_arrow : S (tag c!"->") (tag c!"->") := fun u x r r' hu hx => by
  rw [Lk.tag2, Lk.tag2]
  cases u with
  | nil =>
    have : x ≠ '-' := close_ne hx (P := (· = '-')) (by decide)
    simp only [List.nil_append]; rw [char_cons_ne _ this, char_cons_ne _ this]; exact .err
  | cons d u =>
    by_cases e : d = '-'
    · subst e
      simp only [List.cons_append]
      rw [char_cons, char_cons, andThen_ok, andThen_ok]
      rcases dash hu with ⟨-, -, h⟩ | ⟨w, t, rfl, -⟩
      · exact sm_andThen (s_char (c := '>') (by decide) u x r r' h hx) fun _ w hw => .ok hw
      · exact .err
    · simp only [List.cons_append]; rw [char_cons_ne _ e, char_cons_ne _ e]; exact .err

theorem tw {f : Char → Bool} {u : Str} {x : Char} (hf : f x = false) (r : Str) :
    (u ++ x :: r).takeWhile f = u.takeWhile f ∧ (u ++ x :: r).dropWhile f = u.dropWhile f ++ x :: r := by
  induction u with
  | nil => simp [hf]
  | cons c u ih => cases e : f c <;> simp [e, ih]

theorem shut_drop {f : Char → Bool} (hf : ∀ c, f c = true → Soft c) {u : Str} (hu : Shut u) : Shut (u.dropWhile f) := by
  induction u with
  | nil => exact hu
  | cons c u ih =>
    rw [List.dropWhile_cons]
    split
    · next e => exact ih (soft hu (hf c e))
    · exact hu

theorem no_close {f : Char → Bool} (hf : ∀ c, f c = true → Soft c) {x : Char} (hx : Close x) : f x = false := by
  cases e : f x with
  | false => rfl
  | true => exact absurd rfl (soft_close (hf x e) hx)

theorem s_takeWhile0 {f : Char → Bool} (hf : ∀ c, f c = true → Soft c) : S (takeWhile0 f) (takeWhile0 f) :=
  fun u x r r' hu hx => by
  have h := no_close hf hx
  unfold takeWhile0
  rw [(tw h r).1, (tw h r).2, (tw h r').1, (tw h r').2]
  exact .ok (shut_drop hf hu)
theorem s_takeWhile1 {f : Char → Bool} (hf : ∀ c, f c = true → Soft c) : S (takeWhile1 f) (takeWhile1 f) :=
  fun u x r r' hu hx => by
  have h := no_close hf hx
  unfold takeWhile1
  rw [(tw h r).1, (tw h r).2, (tw h r').1, (tw h r').2]
  split
  · exact .err
  · exact .ok (shut_drop hf hu)

theorem s_word {f g : Char → Bool} (hf : ∀ c, f c = true → Soft c) (hg : ∀ c, g c = true → Soft c) :
    S (reMatches (reHeadTail f g)) (reMatches (reHeadTail f g)) := fun u x r r' hu hx => by
  cases u with
  | nil => simp only [List.nil_append, reMatches, reHeadTail, no_close hf hx]; exact .err
  | cons c u =>
    cases e : f c with
    | true =>
      have h := no_close hg hx
      simp only [List.cons_append, reMatches, reHeadTail, e, if_true]
      rw [(tw h r).1, (tw h r).2, (tw h r').1, (tw h r').2]
      exact .ok (shut_drop hg (soft hu (hf c e)))
    | false => simp only [List.cons_append, reMatches, reHeadTail, e]; exact .err

theorem soft_ident {c : Char} (h : IdentChar c) : Soft c := by
  refine ⟨fun hb => ?_, ?_, ?_, ?_⟩
  · simp only [Bracket, List.mem_cons, List.not_mem_nil, or_false] at hb
    rcases hb with rfl | rfl | rfl | rfl | rfl | rfl <;> exact absurd h (by decide)
  all_goals (rintro rfl; exact absurd h (by decide))
theorem soft_white {c : Char} (h : White c) : Soft c := by
  rcases h with rfl | rfl | rfl | rfl <;> decide
theorem soft_isIdent : ∀ c, isIdent c = true → Soft c := fun _ h => soft_ident (isIdent_iff.1 h)
theorem soft_isLower : ∀ c, isLower c = true → Soft c := fun _ h => soft_ident (.inl (isLower_iff.1 h))
theorem soft_isUpper : ∀ c, isUpper c = true → Soft c := fun _ h => soft_ident (.inr (.inl (isUpper_iff.1 h)))
theorem soft_isDigit : ∀ c, isDigit c = true → Soft c := fun _ h => soft_ident (.inr (.inr (.inl (isDigit_iff.1 h))))
theorem soft_isTyVar : ∀ c, isTyVarChar c = true → Soft c := fun _ h => soft_ident (Rn.tyVar_ident (isTyVarChar_iff.1 h))

theorem s_digit : S digit digit := s_takeWhile1 soft_isDigit
theorem s_spaces : S spaces spaces := s_takeWhile1 (by intro c h; simp at h; exact soft_white (.inl h))
theorem s_sn : S spacesAndNewlines spacesAndNewlines :=
  s_takeWhile1 (by intro c h; simp at h; rcases h with h | h <;> exact soft_white (by simp [White, h]))
theorem s_multispace0 : S multispace0 multispace0 := s_takeWhile0 fun _ h => soft_white (isMultispace_iff.1 h)
theorem s_multispace : S multispace multispace := s_takeWhile1 fun _ h => soft_white (isMultispace_iff.1 h)
theorem s_space1 : S space1 space1 :=
  s_takeWhile1 (by intro c h; simp at h; rcases h with h | h <;> exact soft_white (by simp [White, h]))
theorem s_spaces0 : S spaces0 spaces0 :=
  s_pmap _ (s_opt (s_takeWhile1 (by intro c h; simp at h; exact soft_white (.inl h))))

theorem s_loName : S loName loName :=
  s_alt (s_tag (by decide)) (s_bind (s_word soft_isLower soft_isIdent) fun v => s_bind (s_index v 0) fun n => by
    split
    · exact s_fail
    · exact s_pure _)
theorem s_upName : S upName upName := s_bind (s_word soft_isUpper soft_isIdent) fun v => s_index v 0
theorem s_dotted : S (sepNonemptyList (char '.') upName) (sepNonemptyList (char '.') upName) :=
  s_sepNonemptyList (s_char (by decide)) s_upName
theorem s_typeVariable : S typeVariable typeVariable :=
  s_bind (s_word soft_isLower soft_isTyVar) fun v => s_bind (s_index v 0) fun _ => s_pure _

/-- The rest of an operator. -/
theorem op_run {u : Str} (hu : Shut u) (h : ¬ c!"--" <+: u) : Shut (u.dropWhile isOpChar) := by
  induction u with
  | nil => exact hu
  | cons c u ih =>
    rw [List.dropWhile_cons]
    split
    · next e =>
      have ho := isOpChar_iff.1 e
      have nb : Soft c ∨ c = '-' := by
        by_cases hc : c = '-'
        · exact .inr hc
        · obtain ⟨h1, h2, h3, h4, h5, h6⟩ := Lk.simple_op ho hc
          refine .inl ⟨fun hb => ?_, h1, h2, h3⟩
          simp only [Bracket, List.mem_cons, List.not_mem_nil, or_false] at hb
          rcases hb with rfl | rfl | rfl | rfl | rfl | rfl <;> exact absurd ho (by decide)
      rcases nb with hs | rfl
      · refine ih (soft hu hs) ?_
        cases hu with
        | char _ _ _ _ h => exact h ho
        | pair h' => exact absurd (partners_bracket h') hs.1
        | string => exact absurd rfl hs.2.1
        | longString => exact absurd rfl hs.2.1
        | character => exact absurd rfl hs.2.2.1
        | comment => exact absurd rfl hs.2.2.2
      · rcases dash hu with ⟨-, h2, h3⟩ | ⟨w, t, rfl, -⟩
        · exact ih h3 h2
        · exact absurd ⟨_, rfl⟩ h
    · exact hu

theorem close_op {x : Char} (hx : Close x) : isOpChar x = false := by
  cases e : isOpChar x with
  | false => rfl
  | true => exact absurd (isOpChar_iff.1 e) (close_ne hx (P := OpChar) (by decide))

theorem s_operator : S operator operator := fun u x r r' hu hx => by
  by_cases h : c!"--" <+: u
  · obtain ⟨t, rfl⟩ := h
    rcases dash hu with ⟨h, -⟩ | ⟨w, t, e, -, h2, -⟩
    · exact absurd rfl (next_cons.1 h)
    · obtain rfl := (List.cons.inj e).2
      have key : ∀ z, operator (c!"--" ++ (w ++ '\n' :: t) ++ z) = .err := fun z => by
        have := Lk.operator_dashes (u := w) (r := '\n' :: (t ++ z)) h2 (next_cons.2 rfl)
        simpa using this
      rw [key, key]
      exact .err
  · have hc := close_op hx
    rw [Lk.operator_eq, Lk.operator_eq, (tw hc r).1, (tw hc r).2, (tw hc r').1, (tw hc r').2]
    split
    · exact .err
    · split
      · exact .err
      · exact .ok (op_run hu h)

/-! ### Numbers, strings and characters -/

/-- Two dashes begin no number. -/
theorem s_signed {f : Str → Parser α} (hf : ∀ v, S (f v) (f v)) (h : ∀ z, f ['-'] ('-' :: z) = .err) :
    S (sign >>= f) (sign >>= f) := fun u x r r' hu hx => by
  have plus : S (char '+') (char '+') := s_char (by decide)
  cases u with
  | nil =>
    have h1 : x ≠ '+' := close_ne hx (P := (· = '+')) (by decide)
    have h2 : x ≠ '-' := close_ne hx (P := (· = '-')) (by decide)
    have e : ∀ z, sign (x :: z) = .ok [] (x :: z) := fun z => by
      unfold sign
      rw [pmap_apply, opt_apply, alt_apply, char_cons_ne _ h1, char_cons_ne _ h2]
      rfl
    simp only [List.nil_append, bind_apply]
    rw [e, e, andThen_ok, andThen_ok]
    exact hf [] [] x r r' hu hx
  | cons d u =>
    by_cases e : d = '-'
    · subst e
      have e : ∀ z, sign ('-' :: z) = .ok ['-'] z := fun _ => rfl
      simp only [List.cons_append, bind_apply]
      rw [e, e, andThen_ok, andThen_ok]
      rcases dash hu with ⟨-, -, hs⟩ | ⟨w, t, rfl, -⟩
      · exact hf _ u x r r' hs hx
      · simp only [List.cons_append]; rw [h, h]; exact .err
    · by_cases e2 : d = '+'
      · subst e2
        have e : ∀ z, sign ('+' :: z) = .ok ['+'] z := fun _ => rfl
        simp only [List.cons_append, bind_apply]
        rw [e, e, andThen_ok, andThen_ok]
        exact hf _ u x r r' (soft hu (by decide)) hx
      · have e : ∀ z, sign (d :: z) = .ok [] (d :: z) := fun z => by
          unfold sign
          rw [pmap_apply, opt_apply, alt_apply, char_cons_ne _ e2, char_cons_ne _ e]
          rfl
        simp only [List.cons_append, bind_apply]
        rw [e, e, andThen_ok, andThen_ok]
        exact hf [] (d :: u) x r r' hu hx

theorem s_float : S float float :=
  s_signed (fun _ => s_bind s_digit fun _ => s_bind (s_char (by decide)) fun _ => s_bind s_digit fun _ => s_pure _)
    fun _ => rfl
theorem s_integer : S integer integer := s_signed (fun _ => s_bind s_digit fun _ => s_pure _) fun _ => rfl

theorem s_string : S string string := fun u x r r' hu hx => by
  cases u with
  | nil =>
    have : x ≠ '"' := close_ne hx (P := (· = '"')) (by decide)
    simp only [List.nil_append]; rw [string_err this, string_err this]; exact .err
  | cons c u =>
    by_cases e : c = '"'
    · subst e
      rcases quote hu with ⟨w, t, rfl, h1, h2, h3⟩ | ⟨w, t, rfl, h1, h2⟩
      · have key : ∀ z, string ('"' :: (w ++ '"' :: t) ++ x :: z) = .ok (.String w) (t ++ x :: z) := fun z => by
          have := Lk.string_short (r := t ++ x :: z) h1 fun e => by
            have := h2 e
            cases t with
            | nil => exact next_cons.2 (close_ne hx (P := (· = '"')) (by decide))
            | cons d t => exact next_cons.2 (next_cons (P := (· ≠ '"')).1 this)
          simpa using this
        rw [key, key]
        exact .ok h3
      · have key : ∀ z, string ('"' :: '"' :: '"' :: (w ++ '"' :: '"' :: '"' :: t) ++ x :: z) =
            .ok (.String w) (t ++ x :: z) := fun z => by
          have := Lk.string_long (r := t ++ x :: z) h1
          simpa using this
        rw [key, key]
        exact .ok h2
    · simp only [List.cons_append]; rw [string_err e, string_err e]; exact .err

theorem s_character : S character character := fun u x r r' hu hx => by
  cases u with
  | nil =>
    have : x ≠ '\'' := close_ne hx (P := (· = '\'')) (by decide)
    simp only [List.nil_append]; rw [character_err this, character_err this]; exact .err
  | cons c u =>
    by_cases e : c = '\''
    · subst e
      obtain ⟨w, c, t, rfl, h1, h2⟩ := apostrophe hu
      have key : ∀ z, character ('\'' :: (w ++ '\'' :: t) ++ x :: z) = .ok (.Character c) (t ++ x :: z) := fun z =>
        character_iff.2 ⟨w, c, rfl, by simp, h1⟩
      rw [key, key]
      exact .ok h2
    · simp only [List.cons_append]; rw [character_err e, character_err e]; exact .err

/-! ### Layout -/

theorem comment_eq {w t : Str} (h : '\n' ∉ w) : singleLineComment ('-' :: '-' :: (w ++ '\n' :: t)) = .ok w ('\n' :: t) := by
  have : (w ++ '\n' :: t).takeWhile (fun c => c != '\n') = w ∧ (w ++ '\n' :: t).dropWhile (fun c => c != '\n') = '\n' :: t := by
    induction w with
    | nil => simp
    | cons c w ih =>
      have hc : c ≠ '\n' := fun e => h (by simp [e])
      simp only [List.mem_cons, not_or] at h
      simp [hc, ih h.2]
  simp only [singleLineComment, preceded, bind_apply, tag, stripPrefix, if_true, andThen_ok, reMatches, reLine, reStar, this,
    index, List.getElem?_cons_zero]

theorem s_comment : S singleLineComment singleLineComment := fun u x r r' hu hx => by
  have no : ∀ {c : Char} {z : Str}, c ≠ '-' → singleLineComment (c :: z) = .err := fun {c z} h => by
    simp [singleLineComment, preceded, bind_apply, tag, stripPrefix, h]
  cases u with
  | nil =>
    have : x ≠ '-' := close_ne hx (P := (· = '-')) (by decide)
    simp only [List.nil_append]; rw [no this, no this]; exact .err
  | cons c u =>
    by_cases e : c = '-'
    · subst e
      rcases dash hu with ⟨h, -⟩ | ⟨w, t, rfl, h1, -, h3⟩
      · have no2 : ∀ {z : Str}, Next (· ≠ '-') z → singleLineComment ('-' :: z) = .err := fun {z} h => by
          cases z with
          | nil => rfl
          | cons d z => simp [singleLineComment, preceded, bind_apply, tag, stripPrefix, next_cons.1 h]
        have next : ∀ z, Next (· ≠ '-') (u ++ x :: z) := fun z => by
          cases u with
          | nil => exact next_cons.2 (close_ne hx (P := (· = '-')) (by decide))
          | cons d u => exact next_cons.2 (next_cons (P := (· ≠ '-')).1 h)
        simp only [List.cons_append]
        rw [no2 (next r), no2 (next r')]
        exact .err
      · have key : ∀ z, singleLineComment ('-' :: '-' :: (w ++ '\n' :: t) ++ x :: z) = .ok w (('\n' :: t) ++ x :: z) := fun z => by
          have := comment_eq (t := t ++ x :: z) h1
          simpa using this
        rw [key, key]
        exact .ok h3
    · simp only [List.cons_append]; rw [no e, no e]; exact .err

theorem s_gap (ind : Nat) (ir : IR) : S (gap ind ir) (gap ind ir) :=
  s_mapRes _ <| s_many1 <| s_alt (s_pmap _ s_spaces) <| s_alt (s_pmap _ s_comment) <| s_many1 <|
    s_preceded (s_char (by decide)) <| s_alt (s_pmap _ s_spaces0) (s_pmap _ s_comment)
theorem s_optGap (ind : Nat) (ir : IR) : S (optGap ind ir) (optGap ind ir) := s_pmap _ (s_opt (s_gap ind ir))
theorem s_sameIndent (ind : Nat) : S (newLineAndSameIndent ind) (newLineAndSameIndent ind) :=
  s_mapRes _ (s_preceded (s_char (by decide)) (s_pmap _ s_spaces0))
theorem s_commaSep (ind : Nat) : S (commaSep ind) (commaSep ind) :=
  s_delimited (s_opt (s_gap ind _)) (s_char (by decide)) (s_opt (s_gap ind _))

/-! ### Brackets -/

/-- The parsers end by closing the bracket, if they succeed. -/
def C (c : Char) (p q : Parser α) : Prop := ∀ u x r r', Shut u → Close x →
  (x = c ∧ ∃ v, p (u ++ x :: r) = .ok v r ∧ q (u ++ x :: r') = .ok v r') ∨
  (p (u ++ x :: r) = .err ∧ q (u ++ x :: r') = .err) ∨ Undef (p (u ++ x :: r)) ∨ Undef (q (u ++ x :: r'))

theorem c_bind {c : Char} {p q : Parser α} {f g : α → Parser β} (hp : S p q) (hf : ∀ v, C c (f v) (g v)) :
    C c (p >>= f) (q >>= g) := fun u x r r' hu hx => by
  simp only [bind_apply]
  have h := hp u x r r' hu hx
  revert h
  generalize p (u ++ x :: r) = a, q (u ++ x :: r') = b
  intro h
  cases h with
  | ok h => exact hf _ _ x r r' h hx
  | err => exact .inr (.inl ⟨rfl, rfl⟩)
  | undefL h => exact .inr (.inr (.inl (undef_andThen h)))
  | undefR h => exact .inr (.inr (.inr (undef_andThen h)))

/-- A closing bracket, and a value. -/
theorem c_close {c : Char} (hc : Close c) (v : α) : C c (char c >>= fun _ => pure v) (char c >>= fun _ => pure v) :=
  fun u x r r' hu hx => by
  cases u with
  | nil =>
    by_cases e : x = c
    · subst e
      refine .inl ⟨rfl, v, ?_, ?_⟩ <;> simp only [List.nil_append, bind_apply] <;> rw [char_cons] <;> rfl
    · refine .inr (.inl ⟨?_, ?_⟩) <;> simp only [List.nil_append, bind_apply] <;> rw [char_cons_ne _ e] <;> rfl
  | cons d u =>
    have e : d ≠ c := by
      rintro rfl
      have hb : Bracket d := by
        simp only [Close, List.mem_cons, List.not_mem_nil, or_false] at hc
        rcases hc with rfl | rfl | rfl <;> decide
      obtain ⟨_, _, _, h, -⟩ := opened hu hb
      simp only [Close, List.mem_cons, List.not_mem_nil, or_false] at hc
      rcases partners_open h with rfl | rfl | rfl <;> simp at hc
    refine .inr (.inl ⟨?_, ?_⟩) <;> simp only [List.cons_append, bind_apply] <;> rw [char_cons_ne _ e] <;> rfl

/-- Something in brackets. -/
theorem s_open {o c : Char} (ho : Bracket o) (hn : ¬ Close o) {p q : Parser α} (h : C c p q) :
    S (char o >>= fun _ => p) (char o >>= fun _ => q) := fun u x r r' hu hx => by
  simp only [bind_apply]
  cases u with
  | nil =>
    have : x ≠ o := fun e => hn (e ▸ hx)
    simp only [List.nil_append]; rw [char_cons_ne _ this, char_cons_ne _ this]; exact .err
  | cons d u =>
    by_cases e : d = o
    · subst e
      obtain ⟨y, a, t, h1, rfl, h2, h3⟩ := opened hu ho
      simp only [List.cons_append, List.append_assoc]
      rw [char_cons, char_cons, andThen_ok, andThen_ok]
      rcases h a y (t ++ x :: r) (t ++ x :: r') h2 (partners_close h1) with ⟨-, v, e1, e2⟩ | ⟨e1, e2⟩ | e | e
      · rw [e1, e2]; exact .ok h3
      · rw [e1, e2]; exact .err
      · exact .undefL e
      · exact .undefR e
    · simp only [List.cons_append]; rw [char_cons_ne _ e, char_cons_ne _ e]; exact .err

/-- Something in brackets without white space. -/
theorem s_between {o c : Char} (ho : Bracket o) (hn : ¬ Close o) (hc : Close c) {p q : Parser α} (h : S p q) :
    S (delimited (char o) p (char c)) (delimited (char o) q (char c)) :=
  s_open ho hn (c_bind h fun v => c_close hc v)

theorem bind_assoc' {p : Parser α} {f : α → Parser β} {g : β → Parser γ} :
    (p >>= f) >>= g = p >>= fun v => f v >>= g := by
  funext s
  simp only [bind_apply]
  cases p s <;> rfl
theorem pure_bind' {v : α} {f : α → Parser β} : (pure v : Parser α) >>= f = f v := rfl

theorem wide_eq {a b : Parser α} {p : Parser β} {o c : Char} (s : Str) :
    delimited (preceded (char o) a) p (terminated b (char c)) s =
      (char o >>= fun _ => a >>= fun _ => p >>= fun v => b >>= fun _ => char c >>= fun _ => pure v : Parser β) s := by
  simp only [delimited, preceded, terminated, bind_assoc', pure_bind']

/-- Something in brackets with white space. -/
theorem s_wide {o c : Char} (ho : Bracket o) (hn : ¬ Close o) (hc : Close c) {a b : Parser α} (ha : S a a) (hb : S b b)
    {p q : Parser β} (h : S p q) : S (delimited (preceded (char o) a) p (terminated b (char c)))
      (delimited (preceded (char o) a) q (terminated b (char c))) :=
  s_congr (s_open ho hn (c_bind ha fun _ => c_bind h fun v => c_bind hb fun _ => c_close hc v)) wide_eq wide_eq

/-! ### Types -/

/-- The recursive calls agree. -/
structure TyOk (rc rc' : TyRec) : Prop where
  ty : ∀ ind, S (rc.type_ ind) (rc'.type_ ind)
  ann : ∀ ind, S (rc.typeAnnotation ind) (rc'.typeAnnotation ind)

section
variable {rc rc' : TyRec} (h : TyOk rc rc') (ind : Nat)
include h

theorem s_typeTuple : S (typeTuple rc ind) (typeTuple rc' ind) :=
  s_pmap _ (s_wide (by decide) (by decide) (by decide) (s_opt (s_gap ind _)) (s_opt (s_gap ind _))
    (s_sepList (s_commaSep ind) (h.ty ind)))

theorem s_typeRecordPairs : S (typeRecordPairs rc ind) (typeRecordPairs rc' ind) :=
  s_sepList (s_commaSep ind) <|
    s_bind s_loName fun _ => s_bind (s_opt (s_gap ind _)) fun _ => s_bind (s_char (by decide)) fun _ =>
    s_bind (s_opt (s_gap ind _)) fun _ => s_bind (h.ann ind) fun _ => s_pure _

theorem s_typeRecordConstructor : S (typeRecordConstructor rc ind) (typeRecordConstructor rc' ind) :=
  s_between (by decide) (by decide) (by decide) <|
    s_bind (s_gap ind _) fun _ => s_bind s_typeVariable fun _ => s_bind (s_gap ind _) fun _ =>
    s_bind (s_char (by decide)) fun _ => s_bind (s_gap ind _) fun _ => s_bind (s_typeRecordPairs h ind) fun _ =>
    s_bind (s_gap ind _) fun _ => s_pure _

theorem s_typeRecord : S (typeRecord rc ind) (typeRecord rc' ind) :=
  s_wide (by decide) (by decide) (by decide) (s_opt (s_gap ind _)) (s_opt (s_gap ind _)) (s_pmap _ (s_typeRecordPairs h ind))

theorem s_typeParens : S (typeParens rc ind) (typeParens rc' ind) :=
  s_wide (by decide) (by decide) (by decide) (s_opt (s_gap ind _)) (s_opt (s_gap ind _)) (h.ann ind)

theorem s_typeParameter : S (typeParameter rc ind) (typeParameter rc' ind) :=
  s_alt s_typeVariable <| s_alt (s_pmap _ s_dotted) <| s_alt (s_typeRecordConstructor h ind) <|
  s_alt (s_typeRecord h ind) <| s_alt (s_typeTuple h ind) (s_typeParens h ind)

theorem s_typeConstructorF : S (typeConstructorF rc ind) (typeConstructorF rc' ind) :=
  s_bind s_dotted fun _ => s_bind (s_many0 (p := typeArg rc ind) (q := typeArg rc' ind)
    (s_bind (s_gap ind _) fun j => s_typeParameter h j)) fun _ => s_pure _

theorem s_typeF : S (typeF rc ind) (typeF rc' ind) :=
  s_alt (s_typeConstructorF h ind) <| s_alt s_typeVariable <| s_alt (s_typeRecordConstructor h ind) <|
  s_alt (s_typeRecord h ind) <| s_alt (s_typeTuple h ind) (s_typeParens h ind)

theorem s_typeAnnotationF : S (typeAnnotationF rc ind) (typeAnnotationF rc' ind) :=
  s_congr (s_pmap _ (s_sepNonemptyList (sep := arrowSep) (sep' := arrowSep) (s_delimited s_sn s_arrow s_sn) (s_typeF h ind)))
    (Rn.typeAnnotationF_eq rc ind) (Rn.typeAnnotationF_eq rc' ind)
end

theorem tyOk_tyN (n m : Nat) : TyOk (tyN n) (tyN m) := by
  induction n generalizing m with
  | zero => exact ⟨fun _ _ _ _ _ _ _ => .undefL (.inl rfl), fun _ _ _ _ _ _ _ => .undefL (.inl rfl)⟩
  | succ n ih =>
    cases m with
    | zero => exact ⟨fun _ _ _ _ _ _ _ => .undefR (.inl rfl), fun _ _ _ _ _ _ _ => .undefR (.inl rfl)⟩
    | succ m => exact ⟨fun ind => s_typeF (ih m) ind, fun ind => s_typeAnnotationF (ih m) ind⟩

theorem tyOk_tyRec : TyOk tyRec tyRec where
  ty ind u x r r' hu hx := by
    have h := (tyOk_tyN ((u ++ x :: r).length + 1) ((u ++ x :: r').length + 1)).ty ind u x r r' hu hx
    rw [tyRec]
    exact h
  ann ind u x r r' hu hx := by
    have h := (tyOk_tyN ((u ++ x :: r).length + 1) ((u ++ x :: r').length + 1)).ann ind u x r r' hu hx
    rw [tyRec]
    exact h

/-! ### Expressions -/

theorem s_variableP : S variableP variableP :=
  s_alt (s_pmap _ s_loName) (s_alt (s_pmap _ s_dotted)
    (s_pmap _ (s_between (by decide) (by decide) (by decide)
      (s_alt s_operator (s_takeWhile1 (by intro c h; simp at h; subst h; decide))))))
theorem s_access : S access access :=
  s_bind s_variableP fun _ => s_bind (s_many1 (s_bind (s_char (by decide)) fun _ => s_loName)) fun _ => s_pure _
theorem s_accessFunction : S accessFunction accessFunction :=
  s_bind (s_char (by decide)) fun _ => s_bind s_loName fun _ => s_pure _
theorem s_simplifiedRecord : S simplifiedRecord simplifiedRecord :=
  s_pmap _ (s_between (by decide) (by decide) (by decide) (s_sepList (s_char (by decide))
    (s_bind s_multispace0 fun _ => s_bind s_loName fun _ => s_bind s_multispace0 fun _ => s_pure _)))

/-- The recursive calls agree. -/
def ExOk (rc rc' : ExprRec) : Prop := ∀ ind, S (rc ind) (rc' ind)

section
variable {rc rc' : ExprRec} (h : ExOk rc rc') (ind : Nat)
include h

theorem s_tuple : S (tuple rc ind) (tuple rc' ind) :=
  s_pmap _ (s_between (by decide) (by decide) (by decide)
    (s_sepList (s_char (by decide)) (s_delimited s_multispace0 (h ind) s_multispace0)))

theorem s_list : S (list rc ind) (list rc' ind) :=
  s_pmap _ (s_wide (by decide) (by decide) (by decide) (s_opt (s_gap ind _)) (s_opt (s_gap ind _))
    (s_opt (s_sepList (s_commaSep ind) (h ind))))

theorem s_record : S (record rc ind) (record rc' ind) :=
  s_pmap _ (s_wide (by decide) (by decide) (by decide) (s_opt (s_gap ind _)) (s_opt (s_gap ind _))
    (s_sepList (s_commaSep ind) (s_bind s_loName fun _ =>
      s_bind (s_delimited (s_opt (s_gap ind _)) (s_char (by decide)) (s_opt (s_gap ind _))) fun _ =>
      s_bind (h ind) fun _ => s_pure _)))

theorem s_recordUpdate : S (recordUpdate rc ind) (recordUpdate rc' ind) :=
  s_wide (by decide) (by decide) (by decide) (s_optGap ind _) (s_gap ind _) <|
    s_bind s_loName fun _ => s_bind (s_optGap ind _) fun _ => s_bind (s_char (by decide)) fun _ =>
    s_bind s_multispace0 fun _ => s_bind (s_sepList
      (s_delimited (s_optGap ind _) (s_char (by decide)) (s_optGap ind _))
      (s_bind s_loName fun _ => s_bind s_multispace0 fun _ => s_bind (s_char (by decide)) fun _ =>
        s_bind s_multispace0 fun _ => s_bind (h ind) fun _ => s_pure _)) fun _ => s_pure _

theorem s_parens : S (parens rc ind) (parens rc' ind) := s_between (by decide) (by decide) (by decide) (h ind)

theorem s_termF : S (termF rc ind) (termF rc' ind) :=
  s_alt s_access <| s_alt s_variableP <| s_alt s_accessFunction <| s_alt s_string <| s_alt s_float <| s_alt s_integer <|
  s_alt s_character <| s_alt (s_parens h ind) <| s_alt (s_list h ind) <| s_alt (s_tuple h ind) <|
  s_alt (s_recordUpdate h ind) <| s_alt (s_record h ind) s_simplifiedRecord

theorem s_lambda : S (lambda rc ind) (lambda rc' ind) :=
  s_bind (s_char (by decide)) fun _ => s_bind (s_sepNonemptyList s_space1 (s_termF h ind)) fun _ =>
    s_bind (s_gap ind _) fun _ => s_bind s_arrow fun _ => s_bind (s_gap ind _) fun j => s_bind (h j) fun _ => s_pure _

theorem s_applicationOrVar : S (applicationOrVar rc ind) (applicationOrVar rc' ind) :=
  s_congr (s_pmap _ (s_sepNonemptyList (s_gap ind _) (s_termF h ind))) (Rn.applicationOrVar_eq rc ind)
    (Rn.applicationOrVar_eq rc' ind)

omit h in
theorem s_functionNameOrOp : S functionNameOrOp functionNameOrOp :=
  s_alt s_loName (s_between (by decide) (by decide) (by decide) s_operator)

omit h in
theorem s_functionSignature : S (functionSignature ind) (functionSignature ind) :=
  s_bind s_functionNameOrOp fun _ => s_bind s_spaces fun _ => s_bind (s_char (by decide)) fun _ =>
    s_bind (s_gap ind _) fun j => s_bind (tyOk_tyRec.ann j) fun _ => s_pure _

theorem s_functionDefinitionF : S (functionDefinitionF rc ind) (functionDefinitionF rc' ind) :=
  s_bind s_functionNameOrOp fun _ => s_bind (s_many0 (s_preceded s_spaces (s_termF h ind))) fun _ =>
    s_bind s_spaces fun _ => s_bind (s_char (by decide)) fun _ => s_bind (s_gap ind _) fun j => s_bind (h j) fun _ => s_pure _

theorem s_functionF : S (functionF rc ind) (functionF rc' ind) :=
  s_bind (s_opt (s_terminated (s_functionSignature ind) (s_sameIndent ind))) fun _ =>
    s_bind (s_functionDefinitionF h ind) fun _ => s_pure _

theorem s_letBinding : S (letBinding rc ind) (letBinding rc' ind) :=
  s_bind (s_alt s_variableP <| s_alt (s_list h ind) <| s_alt (s_tuple h ind) s_simplifiedRecord) fun _ =>
    s_bind (s_gap ind _) fun _ => s_bind (s_char (by decide)) fun _ => s_bind (s_gap ind _) fun j => s_bind (h j) fun _ =>
    s_pure _

theorem s_letExpression : S (letExpression rc ind) (letExpression rc' ind) :=
  s_bind (s_tag (by decide)) fun _ => s_bind (s_gap ind _) fun j =>
    s_bind (s_sepNonemptyList (s_gap j _) (s_alt (s_letBinding h j) (s_pmap _ (s_functionF h j)))) fun _ =>
    s_bind (s_gap ind _) fun _ => s_bind (s_tag (by decide)) fun _ => s_bind (s_gap ind _) fun _ =>
    s_bind (h ind) fun _ => s_pure _

theorem s_caseExpression : S (caseExpression rc ind) (caseExpression rc' ind) :=
  s_bind (s_tag (by decide)) fun _ => s_bind (s_gap ind _) fun _ => s_bind (h ind) fun _ => s_bind (s_gap ind _) fun _ =>
    s_bind (s_tag (by decide)) fun _ => s_bind (s_gap ind _) fun j =>
    s_bind (s_sepNonemptyList (s_gap j _) (s_bind (h j) fun _ => s_bind (s_gap j _) fun _ => s_bind s_arrow fun _ =>
      s_bind (s_gap j _) fun k => s_bind (h k) fun _ => s_pure _)) fun _ => s_pure _

theorem s_ifExpression : S (ifExpression rc ind) (ifExpression rc' ind) :=
  s_bind (s_tag (by decide)) fun _ => s_bind (s_gap ind _) fun _ => s_bind (h ind) fun _ => s_bind (s_gap ind _) fun _ =>
    s_bind (s_tag (by decide)) fun _ => s_bind (s_gap ind _) fun j => s_bind (h j) fun _ => s_bind (s_gap ind _) fun _ =>
    s_bind (s_tag (by decide)) fun _ => s_bind (s_gap ind _) fun k => s_bind (h k) fun _ => s_pure _

theorem s_binary : S (binary rc ind) (binary rc' ind) :=
  s_bind (s_applicationOrVar h ind) fun _ => s_bind (s_opt (s_bind (s_gap ind _) fun _ =>
    s_bind (s_pmap _ (s_alt (s_tag (by decide)) s_operator)) fun _ => s_bind s_multispace fun _ =>
    s_bind (h ind) fun _ => s_pure _)) fun _ => s_pure _

theorem s_expressionF : S (expressionF rc ind) (expressionF rc' ind) :=
  s_alt (s_binary h ind) <| s_alt (s_letExpression h ind) <| s_alt (s_caseExpression h ind) <|
  s_alt (s_ifExpression h ind) (s_lambda h ind)
end

theorem exOk_exprN (n m : Nat) : ExOk (exprN n) (exprN m) := by
  induction n generalizing m with
  | zero => exact fun _ _ _ _ _ _ _ => .undefL (.inl rfl)
  | succ n ih =>
    cases m with
    | zero => exact fun _ _ _ _ _ _ _ => .undefR (.inl rfl)
    | succ m => exact fun ind => s_expressionF (ih m) ind

theorem exOk_expression : ExOk expression expression := fun ind u x r r' hu hx => by
  have h := exOk_exprN ((u ++ x :: r).length + 1) ((u ++ x :: r').length + 1) ind u x r r' hu hx
  unfold expression
  exact h

/-- Two runs that are defined. -/
theorem Sm.defined {x : Char} {r r' : Str} {a b : Res α} (h : Sm x r r' a b) (ha : a ≠ .div ∧ a ≠ .panic)
    (hb : b ≠ .div ∧ b ≠ .panic) : (a = .err ∧ b = .err) ∨
      ∃ v u, Shut u ∧ a = .ok v (u ++ x :: r) ∧ b = .ok v (u ++ x :: r') := by
  cases h with
  | ok h => exact .inr ⟨_, _, h, rfl, rfl⟩
  | err => exact .inl ⟨rfl, rfl⟩
  | undefL h =>
    rcases h with h | h
    · exact absurd h ha.1
    · exact absurd h ha.2
  | undefR h =>
    rcases h with h | h
    · exact absurd h hb.1
    · exact absurd h hb.2

/-! ### Something in brackets as a whole -/

/-- What stands after something in brackets does not matter to the parsers. -/
def Q (p q : Parser α) : Prop := ∀ o a c r r', Partners o c → Shut a → (o = '(' → ¬ OpText a) →
  (∃ v, p (o :: (a ++ c :: r)) = .ok v r ∧ q (o :: (a ++ c :: r')) = .ok v r') ∨
  (p (o :: (a ++ c :: r)) = .err ∧ q (o :: (a ++ c :: r')) = .err) ∨
  Undef (p (o :: (a ++ c :: r))) ∨ Undef (q (o :: (a ++ c :: r')))

theorem q_alt {p q p' q' : Parser α} (hp : Q p p') (hq : Q q q') : Q (p </> q) (p' </> q') := fun o a c r r' h1 h2 h3 => by
  simp only [alt_apply]
  rcases hp o a c r r' h1 h2 h3 with ⟨v, e1, e2⟩ | ⟨e1, e2⟩ | (e | e) | (e | e)
  · rw [e1, e2]; exact .inl ⟨v, rfl, rfl⟩
  · rw [e1, e2]; exact hq o a c r r' h1 h2 h3
  · rw [e]; exact .inr (.inr (.inl (.inl rfl)))
  · rw [e]; exact .inr (.inr (.inl (.inr rfl)))
  · rw [e]; exact .inr (.inr (.inr (.inl rfl)))
  · rw [e]; exact .inr (.inr (.inr (.inr rfl)))
theorem q_pmap {p q : Parser α} (f : α → β) (hp : Q p q) : Q (pmap p f) (pmap q f) := fun o a c r r' h1 h2 h3 => by
  simp only [pmap_apply]
  rcases hp o a c r r' h1 h2 h3 with ⟨v, e1, e2⟩ | ⟨e1, e2⟩ | e | e
  · rw [e1, e2]; exact .inl ⟨_, rfl, rfl⟩
  · rw [e1, e2]; exact .inr (.inl ⟨rfl, rfl⟩)
  · exact .inr (.inr (.inl (undef_andThen e)))
  · exact .inr (.inr (.inr (undef_andThen e)))
theorem q_congr {p p1 q q1 : Parser α} (h : Q p1 q1) (e : ∀ s, p s = p1 s) (e' : ∀ s, q s = q1 s) : Q p q :=
  fun o a c r r' h1 h2 h3 => by rw [e, e']; exact h o a c r r' h1 h2 h3
theorem q_err {p q : Parser α} (h : ∀ o z, o = '(' ∨ o = '[' ∨ o = '{' → p (o :: z) = .err ∧ q (o :: z) = .err) : Q p q :=
  fun o _ _ _ _ h1 _ _ => .inr (.inl ⟨(h o _ (partners_open h1)).1, (h o _ (partners_open h1)).2⟩)

theorem q_open {o c : Char} {p q : Parser α} (h : C c p q) : Q (char o >>= fun _ => p) (char o >>= fun _ => q) :=
  fun d a y r r' h1 h2 _ => by
  simp only [bind_apply]
  by_cases e : d = o
  · subst e
    rw [char_cons, char_cons, andThen_ok, andThen_ok]
    rcases h a y r r' h2 (partners_close h1) with ⟨-, v, e1, e2⟩ | h
    · exact .inl ⟨v, e1, e2⟩
    · exact .inr h
  · rw [char_cons_ne _ e, char_cons_ne _ e]; exact .inr (.inl ⟨rfl, rfl⟩)
theorem q_between {o c : Char} (hc : Close c) {p q : Parser α} (h : S p q) :
    Q (delimited (char o) p (char c)) (delimited (char o) q (char c)) := q_open (c_bind h fun v => c_close hc v)
theorem q_wide {o c : Char} (hc : Close c) {a b : Parser α} (ha : S a a) (hb : S b b) {p q : Parser β} (h : S p q) :
    Q (delimited (preceded (char o) a) p (terminated b (char c)))
      (delimited (preceded (char o) a) q (terminated b (char c))) :=
  q_congr (q_open (c_bind ha fun _ => c_bind h fun v => c_bind hb fun _ => c_close hc v)) wide_eq wide_eq

/-- No closing bracket begins a text in which nothing is open. -/
theorem head_close {d : Char} {u : Str} (h : Shut (d :: u)) : ¬ Close d := fun hd => by
  have hb : Bracket d := by
    simp only [Close, List.mem_cons, List.not_mem_nil, or_false] at hd
    rcases hd with rfl | rfl | rfl <;> decide
  obtain ⟨_, _, _, h, -⟩ := opened h hb
  simp only [Close, List.mem_cons, List.not_mem_nil, or_false] at hd
  rcases partners_open h with rfl | rfl | rfl <;> simp at hd

theorem op_none {a r : Str} {c : Char} (hc : Close c) (ha : Shut a) (h : ¬ OpText a) : op ('(' :: (a ++ c :: r)) = .err := by
  have key : ∀ {v w}, (operator </> takeWhile1 fun c => c == ',') (a ++ c :: r) = .ok v (w ++ c :: r) → Shut w →
      char ')' (w ++ c :: r) = .err := by
    intro v w e hw
    cases w with
    | cons d w =>
      have := head_close hw
      exact char_cons_ne _ fun e => this (by rw [e]; decide)
    | nil =>
      refine absurd ?_ h
      rcases alt_eq_ok.1 e with e | ⟨-, e⟩
      · obtain ⟨e, h1, -⟩ := operator_iff.1 e
        cases List.append_cancel_right e
        exact .inl h1
      · unfold takeWhile1 at e
        have hn : ((c : Char) == ',') = false := by
          simp only [Close, List.mem_cons, List.not_mem_nil, or_false] at hc
          rcases hc with rfl | rfl | rfl <;> rfl
        rw [(tw (f := fun c => c == ',') hn r).1, (tw (f := fun c => c == ',') hn r).2] at e
        have hd : a.dropWhile (fun c => c == ',') = [] := by
          split at e
          · cases e
          · simp only [Res.ok.injEq] at e
            exact List.append_cancel_right e.2
        refine .inr ⟨?_, ?_⟩
        · rintro rfl; simp at e
        · intro d hda
          have := List.takeWhile_append_dropWhile (p := fun c => c == ',') (l := a)
          rw [hd, List.append_nil] at this
          rw [← this] at hda
          have := List.all_takeWhile (p := fun c : Char => c == ',') (l := a)
          exact eq_of_beq (List.all_eq_true.1 this d hda)
  have hs := s_alt s_operator (s_takeWhile1 (f := fun c => c == ',') (by intro c h; simp at h; subst h; decide)) a c r r ha hc
  unfold op
  rw [pmap_apply, delimited_apply, char_cons, andThen_ok]
  cases e : (operator </> takeWhile1 fun c => c == ',') (a ++ c :: r) with
  | ok v t =>
    rw [e] at hs
    cases hs with
    | @ok v w hw => rw [andThen_ok, key e hw]; rfl
    | undefL h => rcases h with h | h <;> cases h
    | undefR h => rcases h with h | h <;> cases h
  | err => rfl
  | panic =>
    rw [e] at hs
    rcases err_or_ok (fun k => cons_alt (cons_operator k) (cons_takeWhile1 k _)) (a ++ c :: r) with h | ⟨_, _, h, -⟩ <;>
      rw [h] at e <;> cases e
  | div =>
    rcases err_or_ok (fun k => cons_alt (cons_operator k) (cons_takeWhile1 k _)) (a ++ c :: r) with h | ⟨_, _, h, -⟩ <;>
      rw [h] at e <;> cases e

theorem variable_none {o c : Char} {a r : Str} (ho : Partners o c) (ha : Shut a) (h : o = '(' → ¬ OpText a) :
    variableP (o :: (a ++ c :: r)) = .err := by
  have hc := partners_close ho
  rcases partners_open ho with rfl | rfl | rfl
  · unfold variableP
    simp only [alt_apply, lowerCase_err (Rn.loName_err (c := '(') (by decide) (by decide)), upperWithDots_err (by decide : ¬ Upper '('),
      op_none hc ha (h rfl), orElse_err]
  · exact variableP_err (by decide) (by decide) (by decide)
  · exact variableP_err (by decide) (by decide) (by decide)

section
variable {rc rc' : ExprRec} (h : ExOk rc rc') (ind : Nat)
include h
theorem q_termF : Q (termF rc ind) (termF rc' ind) := by
  have none : ∀ {p : Parser Expr}, (∀ z, p ('(' :: z) = .err ∧ p ('[' :: z) = .err ∧ p ('{' :: z) = .err) → Q p p :=
    fun hp => q_err fun o z ho => by
      rcases ho with rfl | rfl | rfl
      · exact ⟨(hp z).1, (hp z).1⟩
      · exact ⟨(hp z).2.1, (hp z).2.1⟩
      · exact ⟨(hp z).2.2, (hp z).2.2⟩
  refine q_alt (fun o a c r r' h1 h2 h3 => .inr (.inl ⟨access_err_of_variable (variable_none h1 h2 h3),
      access_err_of_variable (variable_none h1 h2 h3)⟩)) <|
    q_alt (fun o a c r r' h1 h2 h3 => .inr (.inl ⟨variable_none h1 h2 h3, variable_none h1 h2 h3⟩)) <|
    q_alt (none fun z => ⟨rfl, rfl, rfl⟩) <|
    q_alt (none fun z => ⟨string_err (by decide), string_err (by decide), string_err (by decide)⟩) <|
    q_alt (none fun z => ⟨rfl, rfl, rfl⟩) <| q_alt (none fun z => ⟨rfl, rfl, rfl⟩) <|
    q_alt (none fun z => ⟨character_err (by decide), character_err (by decide), character_err (by decide)⟩) <|
    q_alt (q_between (by decide) (h ind)) <| q_alt (q_pmap _ (q_wide (by decide) (s_opt (s_gap ind _)) (s_opt (s_gap ind _))
      (s_opt (s_sepList (s_commaSep ind) (h ind))))) <|
    q_alt (q_pmap _ (q_between (by decide) (s_sepList (s_char (by decide)) (s_delimited s_multispace0 (h ind) s_multispace0)))) <|
    q_alt ?_ <| q_alt ?_ ?_
  · exact q_wide (by decide) (s_optGap ind _) (s_gap ind _) <|
      s_bind s_loName fun _ => s_bind (s_optGap ind _) fun _ => s_bind (s_char (by decide)) fun _ =>
      s_bind s_multispace0 fun _ => s_bind (s_sepList
        (s_delimited (s_optGap ind _) (s_char (by decide)) (s_optGap ind _))
        (s_bind s_loName fun _ => s_bind s_multispace0 fun _ => s_bind (s_char (by decide)) fun _ =>
          s_bind s_multispace0 fun _ => s_bind (h ind) fun _ => s_pure _)) fun _ => s_pure _
  · exact q_pmap _ (q_wide (by decide) (s_opt (s_gap ind _)) (s_opt (s_gap ind _))
      (s_sepList (s_commaSep ind) (s_bind s_loName fun _ =>
        s_bind (s_delimited (s_opt (s_gap ind _)) (s_char (by decide)) (s_opt (s_gap ind _))) fun _ =>
        s_bind (h ind) fun _ => s_pure _)))
  · exact q_pmap _ (q_between (by decide) (s_sepList (s_char (by decide))
      (s_bind s_multispace0 fun _ => s_bind s_loName fun _ => s_bind s_multispace0 fun _ => s_pure _)))
end

section
variable {rc rc' : TyRec} (h : TyOk rc rc') (ind : Nat)
include h
theorem q_typeF : Q (typeF rc ind) (typeF rc' ind) := by
  have none : ∀ {p q : Parser Ty}, (∀ z, p ('(' :: z) = .err ∧ p ('[' :: z) = .err ∧ p ('{' :: z) = .err) →
      (∀ z, q ('(' :: z) = .err ∧ q ('[' :: z) = .err ∧ q ('{' :: z) = .err) → Q p q :=
    fun hp hq => q_err fun o z ho => by
      rcases ho with rfl | rfl | rfl
      · exact ⟨(hp z).1, (hq z).1⟩
      · exact ⟨(hp z).2.1, (hq z).2.1⟩
      · exact ⟨(hp z).2.2, (hq z).2.2⟩
  exact q_alt (none (fun z => ⟨rfl, rfl, rfl⟩) fun z => ⟨rfl, rfl, rfl⟩) <|
    q_alt (none (fun z => ⟨rfl, rfl, rfl⟩) fun z => ⟨rfl, rfl, rfl⟩) <|
    q_alt (q_between (by decide) <|
      s_bind (s_gap ind _) fun _ => s_bind s_typeVariable fun _ => s_bind (s_gap ind _) fun _ =>
      s_bind (s_char (by decide)) fun _ => s_bind (s_gap ind _) fun _ => s_bind (s_typeRecordPairs h ind) fun _ =>
      s_bind (s_gap ind _) fun _ => s_pure _) <|
    q_alt (q_wide (by decide) (s_opt (s_gap ind _)) (s_opt (s_gap ind _)) (s_pmap _ (s_typeRecordPairs h ind))) <|
    q_alt (q_pmap _ (q_wide (by decide) (s_opt (s_gap ind _)) (s_opt (s_gap ind _))
      (s_sepList (s_commaSep ind) (h.ty ind))))
    (q_wide (by decide) (s_opt (s_gap ind _)) (s_opt (s_gap ind _)) (h.ann ind))
end

/-- One answer for everything that can follow. -/
theorem Q.answer {p : Parser α} (h : Q p p) (hp : ∀ s, p s ≠ .div ∧ p s ≠ .panic) {o c : Char} {a : Str}
    (h1 : Partners o c) (h2 : Shut a) (h3 : o = '(' → ¬ OpText a) :
    (∀ r, p (o :: (a ++ c :: r)) = .err) ∨ ∃ v, ∀ r, p (o :: (a ++ c :: r)) = .ok v r := by
  have key := fun r => h o a c [] r h1 h2 h3
  cases e : p (o :: (a ++ c :: [])) with
  | err =>
    refine .inl fun r => ?_
    rcases key r with ⟨v, e1, -⟩ | ⟨-, e2⟩ | (e' | e') | (e' | e')
    · rw [e1] at e; cases e
    · exact e2
    · exact absurd e' (hp _).1
    · exact absurd e' (hp _).2
    · exact absurd e' (hp _).1
    · exact absurd e' (hp _).2
  | ok v t =>
    refine .inr ⟨v, fun r => ?_⟩
    rcases key r with ⟨w, e1, e2⟩ | ⟨e1, -⟩ | (e' | e') | (e' | e')
    · rw [e1] at e; cases e; exact e2
    · rw [e1] at e; cases e
    · exact absurd e' (hp _).1
    · exact absurd e' (hp _).2
    · exact absurd e' (hp _).1
    · exact absurd e' (hp _).2
  | panic => exact absurd e (hp _).2
  | div => exact absurd e (hp _).1

end Sh
end ElmParser
