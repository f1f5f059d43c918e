import Verif.Proofs.Shield
import Verif.Spec.Offside

/-! A simulation: no parser that is given an indentation passes a line end behind which the lines are indented less. -/
namespace ElmParser
open Spec
set_option linter.unusedSectionVars false

namespace Of

variable {α β γ : Type} {n : Nat}

/-! ### Texts -/

/-- The text before the line end. -/
def W (u : Str) : Prop := Shut u ∧ Ends u

theorem ends_suffix {c w : Str} (h : Ends (c ++ w)) : Ends w :=
  ⟨fun v x e => h.1 (c ++ v) x (by rw [e, List.append_assoc]), fun v x e => h.2 (c ++ v) x (by rw [e, List.append_assoc])⟩
theorem W.drop {c w : Str} (h : W (c ++ w)) (hw : Shut w) : W w := ⟨hw, ends_suffix h.2⟩
theorem W.tail {c : Char} {w : Str} (h : W (c :: w)) (hw : Shut w) : W w := h.drop (c := [c]) hw

/-- The texts from the line end on. -/
def Bs (n : Nat) (b b' : Str) : Prop := Below n b ∧ Below n b'

/-- Nothing, or a line end. -/
abbrev Edge (b : Str) : Prop := Next (· = '\n') b

theorem edge {b : Str} (h : Below n b) : Edge b := by
  cases h with
  | nil => exact next_nil _
  | line => exact next_cons.2 rfl

/-! ### The simulation -/

/-- The two runs agree: both fail, or both succeed with the same value, and have not passed the line end. -/
inductive Sm (b b' : Str) : Res α → Res α → Prop
  | ok {v u} : W u → Sm b b' (.ok v (u ++ b)) (.ok v (u ++ b'))
  | err : Sm b b' .err .err
  | undefL {x y} : Undef x → Sm b b' x y
  | undefR {x y} : Undef y → Sm b b' x y

/-- What stands after the line end does not matter to the parsers. -/
def S (n : Nat) (p q : Parser α) : Prop :=
  ∀ u b b', W u → Bs n b b' → Sm b b' (p (u ++ b)) (q (u ++ b'))

theorem sm_andThen {b b' : Str} {x y : Res α} {f g : α → Str → Res β} (h : Sm b b' x y)
    (hf : ∀ v u, W u → Sm b b' (f v (u ++ b)) (g v (u ++ b'))) :
    Sm b b' (x.andThen f) (y.andThen g) := by
  cases h with
  | ok h => exact hf _ _ h
  | err => exact .err
  | undefL h => exact .undefL (undef_andThen h)
  | undefR h => exact .undefR (undef_andThen h)

theorem s_pure (v : α) : S n (pure v) (pure v) := fun _ _ _ hu _ => .ok hu
theorem s_fail : S n (Parser.fail : Parser α) Parser.fail := fun _ _ _ _ _ => .err
theorem s_congr {p p1 q q1 : Parser α} (h : S n p1 q1) (e : ∀ s, p s = p1 s) (e' : ∀ s, q s = q1 s) : S n p q :=
  fun u b b' hu hx => by rw [e, e']; exact h u b b' hu hx

theorem s_bind {p q : Parser α} {f g : α → Parser β} (hp : S n p q) (hf : ∀ v, S n (f v) (g v)) : S n (p >>= f) (q >>= g) :=
  fun u b b' hu hx => sm_andThen (hp u b b' hu hx) fun v u hu => hf v u b b' hu hx

theorem s_alt {p q p' q' : Parser α} (hp : S n p p') (hq : S n q q') : S n (p </> q) (p' </> q') := fun u b b' hu hx => by
  simp only [alt_apply]
  have h := hp u b b' hu hx
  revert h
  generalize p (u ++ b) = y, p' (u ++ b') = y'
  intro h
  cases h with
  | ok h => exact .ok h
  | err => exact hq u b b' hu hx
  | undefL h => rcases h with rfl | rfl <;> exact .undefL (by simp [Undef])
  | undefR h => rcases h with rfl | rfl <;> exact .undefR (by simp [Undef])

theorem s_pmap {p q : Parser α} (f : α → β) (h : S n p q) : S n (pmap p f) (pmap q f) := s_bind h fun v => s_pure (f v)
theorem s_opt {p q : Parser α} (h : S n p q) : S n (opt p) (opt q) := s_alt (s_pmap some h) (s_pure none)
theorem s_mapRes {p q : Parser α} (f : α → Option β) (h : S n p q) : S n (mapRes p f) (mapRes q f) := s_bind h fun v => by
  cases f v with
  | none => exact s_fail
  | some w => exact s_pure w
theorem s_preceded {p p' : Parser α} {q q' : Parser β} (hp : S n p p') (hq : S n q q') : S n (preceded p q) (preceded p' q') :=
  s_bind hp fun _ => hq
theorem s_terminated {p p' : Parser α} {q q' : Parser β} (hp : S n p p') (hq : S n q q') :
    S n (terminated p q) (terminated p' q') := s_bind hp fun _ => s_bind hq fun _ => s_pure _
theorem s_delimited {p p' : Parser α} {q q' : Parser β} {t t' : Parser γ} (hp : S n p p') (hq : S n q q') (ht : S n t t') :
    S n (delimited p q t) (delimited p' q' t') := s_bind hp fun _ => s_terminated hq ht
theorem s_index (v : List α) (i : Nat) : S n (index v i) (index v i) := fun u b b' hu _ => by
  unfold index
  cases v[i]? with
  | some a => exact .ok hu
  | none => exact .undefL (.inr rfl)

theorem rest_eq {u w : Str} (b b' : Str) : u ++ b = w ++ b ↔ u ++ b' = w ++ b' := by
  rw [List.append_cancel_right_eq, List.append_cancel_right_eq]
theorem rest_length {u w : Str} (b b' : Str) :
    (u ++ b).length = (w ++ b).length ↔ (u ++ b').length = (w ++ b').length := by
  simp only [List.length_append]; omega

theorem sm_many0Loop {p q : Parser α} (hp : S n p q) (k m : Nat) {u : Str} {b b' : Str} (hu : W u)
    (hx : Bs n b b') : Sm b b' (many0Loop p k (u ++ b)) (many0Loop q m (u ++ b')) := by
  induction k generalizing m u with
  | zero => exact .undefL (.inl rfl)
  | succ k ih =>
    cases m with
    | zero => exact .undefR (.inl rfl)
    | succ m =>
    simp only [many0Loop]
    have h := hp u b b' hu hx
    revert h
    generalize p (u ++ b) = y, q (u ++ b') = y'
    intro h
    cases h with
    | @ok v w hw =>
      dsimp only
      simp only [rest_eq b b']
      split
      · exact .ok hu
      · exact sm_andThen (ih m hw) fun vs t ht => .ok ht
    | err => exact .ok hu
    | undefL h => rcases h with rfl | rfl <;> exact .undefL (by simp [Undef])
    | undefR h => rcases h with rfl | rfl <;> exact .undefR (by simp [Undef])

theorem s_many0 {p q : Parser α} (hp : S n p q) : S n (many0 p) (many0 q) :=
  fun _ _ _ hu hx => sm_many0Loop hp _ _ hu hx
theorem s_many1 {p q : Parser α} (hp : S n p q) : S n (many1 p) (many1 q) :=
  s_bind hp fun _ => s_bind (s_many0 hp) fun _ => s_pure _

theorem sm_sepLoop {sep sep' : Parser β} {p q : Parser α} {b b' : Str} (hsep : ∀ u, W u → Sm b b' (sep (u ++ b)) (sep' (u ++ b')))
    (hp : ∀ u, W u → Sm b b' (p (u ++ b)) (q (u ++ b'))) (k m : Nat) {u : Str} (hu : W u) :
    Sm b b' (sepLoop sep p k (u ++ b)) (sepLoop sep' q m (u ++ b')) := by
  induction k generalizing m u with
  | zero => exact .undefL (.inl rfl)
  | succ k ih =>
    cases m with
    | zero => exact .undefR (.inl rfl)
    | succ m =>
    simp only [sepLoop]
    have h := hsep u hu
    revert h
    generalize sep (u ++ b) = y, sep' (u ++ b') = y'
    intro h
    cases h with
    | @ok v w hw =>
      dsimp only
      simp only [rest_length b b']
      split
      · exact .ok hu
      · have h := hp w hw
        revert h
        generalize p (w ++ b) = y, q (w ++ b') = y'
        intro h
        cases h with
        | @ok v t ht =>
          dsimp only
          simp only [rest_length b b']
          split
          · exact .ok hu
          · exact sm_andThen (ih m ht) fun vs t ht => .ok ht
        | err => exact .ok hu
        | undefL h => rcases h with rfl | rfl <;> exact .undefL (by simp [Undef])
        | undefR h => rcases h with rfl | rfl <;> exact .undefR (by simp [Undef])
    | err => exact .ok hu
    | undefL h => rcases h with rfl | rfl <;> exact .undefL (by simp [Undef])
    | undefR h => rcases h with rfl | rfl <;> exact .undefR (by simp [Undef])

theorem sm_sepNonemptyList {sep sep' : Parser β} {p q : Parser α} {b b' : Str} (hsep : ∀ u, W u → Sm b b' (sep (u ++ b)) (sep' (u ++ b')))
    (hp : ∀ u, W u → Sm b b' (p (u ++ b)) (q (u ++ b'))) {u : Str} (hu : W u) :
    Sm b b' (sepNonemptyList sep p (u ++ b)) (sepNonemptyList sep' q (u ++ b')) := by
  unfold sepNonemptyList
  refine sm_andThen (hp u hu) fun v w hw => ?_
  simp only [rest_length b b']
  split
  · exact .err
  · exact sm_andThen (sm_sepLoop hsep hp _ _ hw) fun vs t ht => .ok ht

theorem s_sepNonemptyList {sep sep' : Parser β} {p q : Parser α} (hsep : S n sep sep') (hp : S n p q) :
    S n (sepNonemptyList sep p) (sepNonemptyList sep' q) := fun _ b b' hu hx =>
  sm_sepNonemptyList (fun u hu => hsep u b b' hu hx) (fun u hu => hp u b b' hu hx) hu

theorem s_sepList {sep sep' : Parser β} {p q : Parser α} (hsep : S n sep sep') (hp : S n p q) :
    S n (sepList sep p) (sepList sep' q) := fun u b b' hu hx => by
  unfold sepList
  have h := hp u b b' hu hx
  revert h
  generalize p (u ++ b) = y, q (u ++ b') = y'
  intro h
  cases h with
  | @ok v w hw =>
    dsimp only
    simp only [rest_length b b']
    split
    · exact .err
    · exact sm_andThen (sm_sepLoop (fun u hu => hsep u b b' hu hx) (fun u hu => hp u b b' hu hx) _ _ hw) fun vs t ht => .ok ht
  | err => exact .ok hu
  | undefL h => rcases h with rfl | rfl <;> exact .undefL (by simp [Undef])
  | undefR h => rcases h with rfl | rfl <;> exact .undefR (by simp [Undef])

/-! ### Tokens -/

/-- A character that begins nothing special and does not end the line. -/
def Lone (c : Char) : Prop := Sh.Soft c ∧ c ≠ '\n'
instance : DecidablePred Lone := fun _ => inferInstanceAs (Decidable (_ ∧ _))

theorem char_edge {b : Str} (h : Edge b) {c : Char} (hc : c ≠ '\n') : char c b = .err := by
  cases b with
  | nil => rfl
  | cons d b => cases next_cons.1 h; exact char_cons_ne _ (Ne.symm hc)

theorem s_char {c : Char} (hc : Lone c) : S n (char c) (char c) := fun u b b' hu hx => by
  cases u with
  | nil =>
    simp only [List.nil_append]
    rw [char_edge (edge hx.1) hc.2, char_edge (edge hx.2) hc.2]
    exact .err
  | cons d u =>
    by_cases e : d = c
    · subst e; simp only [List.cons_append]; rw [char_cons, char_cons]; exact .ok (hu.tail (Sh.soft hu.1 hc.1))
    · simp only [List.cons_append]; rw [char_cons_ne _ e, char_cons_ne _ e]; exact .err

theorem strip_edge {b : Str} (h : Edge b) {c : Char} {k : Str} (hc : c ≠ '\n') : stripPrefix (c :: k) b = none := by
  cases b with
  | nil => rfl
  | cons d b => cases next_cons.1 h; simp [stripPrefix, Ne.symm hc]

theorem s_tag {k : Str} (hk : ∀ c ∈ k, Lone c) : S n (tag k) (tag k) := fun u b b' hu hx => by
  have key : ∀ k : Str, (∀ c ∈ k, Lone c) → ∀ u, W u → (∃ w, W w ∧ stripPrefix k (u ++ b) = some (w ++ b) ∧
      stripPrefix k (u ++ b') = some (w ++ b')) ∨
      (stripPrefix k (u ++ b) = none ∧ stripPrefix k (u ++ b') = none) := by
    intro k hk
    induction k with
    | nil => intro u hu; exact .inl ⟨u, hu, by rw [stripPrefix], by rw [stripPrefix]⟩
    | cons c k ih =>
      intro u hu
      cases u with
      | nil => exact .inr ⟨strip_edge (edge hx.1) (hk c (by simp)).2, strip_edge (edge hx.2) (hk c (by simp)).2⟩
      | cons d u =>
        by_cases e : d = c
        · subst e
          simp only [List.cons_append, stripPrefix, if_true]
          exact ih (fun c hc => hk c (List.mem_cons_of_mem _ hc)) u (hu.tail (Sh.soft hu.1 (hk _ (by simp)).1))
        · right; simp [stripPrefix, e]
  unfold tag
  rcases key k hk u hu with ⟨w, hw, e, e'⟩ | ⟨e, e'⟩
  · rw [e, e']; exact .ok hw
  · rw [e, e']; exact .err

theorem s_arrow : S n (tag c!"->") (tag c!"->") := fun u b b' hu hx => by
  rw [Lk.tag2, Lk.tag2]
  cases u with
  | nil =>
    simp only [List.nil_append]
    rw [char_edge (edge hx.1) (by decide), char_edge (edge hx.2) (by decide)]
    exact .err
  | cons d u =>
    by_cases e : d = '-'
    · subst e
      simp only [List.cons_append]
      rw [char_cons, char_cons, andThen_ok, andThen_ok]
      rcases Sh.dash hu.1 with ⟨-, -, h⟩ | ⟨w, t, rfl, -⟩
      · exact sm_andThen (s_char (c := '>') (by decide) u b b' (hu.tail h) hx) fun _ w hw => .ok hw
      · exact .err
    · simp only [List.cons_append]; rw [char_cons_ne _ e, char_cons_ne _ e]; exact .err

theorem tw {f : Char → Bool} {u b : Str} (hf : f '\n' = false) (h : Edge b) :
    (u ++ b).takeWhile f = u.takeWhile f ∧ (u ++ b).dropWhile f = u.dropWhile f ++ b := by
  induction u with
  | nil =>
    cases b with
    | nil => simp
    | cons c b => cases next_cons.1 h; simp [hf]
  | cons c u ih => cases e : f c <;> simp [e, ih]

theorem w_drop {f : Char → Bool} (hf : ∀ c, f c = true → Sh.Soft c) {u : Str} (hu : W u) : W (u.dropWhile f) := by
  have := hu
  rw [← List.takeWhile_append_dropWhile (p := f) (l := u)] at this
  exact this.drop (Sh.shut_drop hf hu.1)

theorem no_line {f : Char → Bool} (hf : ∀ c, f c = true → Lone c) : f '\n' = false := by
  cases e : f '\n' with
  | false => rfl
  | true => exact absurd rfl (hf _ e).2

theorem s_takeWhile1 {f : Char → Bool} (hf : ∀ c, f c = true → Lone c) : S n (takeWhile1 f) (takeWhile1 f) :=
  fun u b b' hu hx => by
  have h := no_line hf
  unfold takeWhile1
  rw [(tw h (edge hx.1)).1, (tw h (edge hx.1)).2, (tw h (edge hx.2)).1, (tw h (edge hx.2)).2]
  split
  · exact .err
  · exact .ok (w_drop (fun c h => (hf c h).1) hu)

theorem word_edge {f g : Char → Bool} (hf : f '\n' = false) {b : Str} (h : Edge b) : reMatches (reHeadTail f g) b = .err := by
  cases b with
  | nil => rfl
  | cons c b => cases next_cons.1 h; simp only [reMatches, reHeadTail, hf]; rfl

theorem s_word {f g : Char → Bool} (hf : ∀ c, f c = true → Lone c) (hg : ∀ c, g c = true → Lone c) :
    S n (reMatches (reHeadTail f g)) (reMatches (reHeadTail f g)) := fun u b b' hu hx => by
  cases u with
  | nil =>
    simp only [List.nil_append]
    rw [word_edge (no_line hf) (edge hx.1), word_edge (no_line hf) (edge hx.2)]
    exact .err
  | cons c u =>
    cases e : f c with
    | true =>
      have h := no_line hg
      simp only [List.cons_append, reMatches, reHeadTail, e, if_true]
      rw [(tw h (edge hx.1)).1, (tw h (edge hx.1)).2, (tw h (edge hx.2)).1, (tw h (edge hx.2)).2]
      exact .ok (w_drop (fun c h => (hg c h).1) (hu.tail (Sh.soft hu.1 (hf c e).1)))
    | false => simp only [List.cons_append, reMatches, reHeadTail, e]; exact .err

theorem lone_ident {c : Char} (h : IdentChar c) : Lone c := ⟨Sh.soft_ident h, by rintro rfl; exact absurd h (by decide)⟩
theorem lone_isIdent : ∀ c, isIdent c = true → Lone c := fun _ h => lone_ident (isIdent_iff.1 h)
theorem lone_isLower : ∀ c, isLower c = true → Lone c := fun _ h => lone_ident (.inl (isLower_iff.1 h))
theorem lone_isUpper : ∀ c, isUpper c = true → Lone c := fun _ h => lone_ident (.inr (.inl (isUpper_iff.1 h)))
theorem lone_isDigit : ∀ c, isDigit c = true → Lone c := fun _ h => lone_ident (.inr (.inr (.inl (isDigit_iff.1 h))))
theorem lone_isTyVar : ∀ c, isTyVarChar c = true → Lone c := fun _ h => lone_ident (Rn.tyVar_ident (isTyVarChar_iff.1 h))

theorem s_digit : S n digit digit := s_takeWhile1 lone_isDigit
theorem s_spaces : S n spaces spaces := s_takeWhile1 (by intro c h; simp at h; subst h; decide)
theorem s_space1 : S n space1 space1 := s_takeWhile1 (by intro c h; simp at h; rcases h with h | h <;> subst h <;> decide)

theorem s_loName : S n loName loName :=
  s_alt (s_tag (by decide)) (s_bind (s_word lone_isLower lone_isIdent) fun v => s_bind (s_index v 0) fun n => by
    split
    · exact s_fail
    · exact s_pure _)
theorem s_upName : S n upName upName := s_bind (s_word lone_isUpper lone_isIdent) fun v => s_index v 0
theorem s_dotted : S n (sepNonemptyList (char '.') upName) (sepNonemptyList (char '.') upName) :=
  s_sepNonemptyList (s_char (by decide)) s_upName
theorem s_typeVariable : S n typeVariable typeVariable :=
  s_bind (s_word lone_isLower lone_isTyVar) fun v => s_bind (s_index v 0) fun _ => s_pure _

/-- Two dashes begin no number. -/
theorem s_signed {f : Str → Parser α} (hf : ∀ v, S n (f v) (f v)) (h : ∀ z, f ['-'] ('-' :: z) = .err) :
    S n (sign >>= f) (sign >>= f) := fun u b b' hu hx => by
  cases u with
  | nil =>
    have e : ∀ {z}, Edge z → sign z = .ok [] z := fun {z} hz => by
      unfold sign
      rw [pmap_apply, opt_apply, alt_apply, char_edge hz (by decide), char_edge hz (by decide)]
      rfl
    simp only [List.nil_append, bind_apply]
    rw [e (edge hx.1), e (edge hx.2), andThen_ok, andThen_ok]
    exact hf [] [] b b' hu hx
  | cons d u =>
    by_cases e : d = '-'
    · subst e
      have e : ∀ z, sign ('-' :: z) = .ok ['-'] z := fun _ => rfl
      simp only [List.cons_append, bind_apply]
      rw [e, e, andThen_ok, andThen_ok]
      rcases Sh.dash hu.1 with ⟨-, -, hs⟩ | ⟨w, t, rfl, -⟩
      · exact hf _ u b b' (hu.tail hs) hx
      · simp only [List.cons_append]; rw [h, h]; exact .err
    · by_cases e2 : d = '+'
      · subst e2
        have e : ∀ z, sign ('+' :: z) = .ok ['+'] z := fun _ => rfl
        simp only [List.cons_append, bind_apply]
        rw [e, e, andThen_ok, andThen_ok]
        exact hf _ u b b' (hu.tail (Sh.soft hu.1 (by decide))) hx
      · have e : ∀ z, sign (d :: z) = .ok [] (d :: z) := fun z => sign_none e2 e
        simp only [List.cons_append, bind_apply]
        rw [e, e, andThen_ok, andThen_ok]
        exact hf [] (d :: u) b b' hu hx

theorem s_float : S n float float :=
  s_signed (fun _ => s_bind s_digit fun _ => s_bind (s_char (by decide)) fun _ => s_bind s_digit fun _ => s_pure _)
    fun _ => rfl
theorem s_integer : S n integer integer := s_signed (fun _ => s_bind s_digit fun _ => s_pure _) fun _ => rfl

theorem s_string : S n string string := fun u b b' hu hx => by
  have nl : ∀ {z}, Edge z → string z = .err := fun {z} hz => by
    cases z with
    | nil => rfl
    | cons c z => cases next_cons.1 hz; exact string_err (by decide)
  cases u with
  | nil => simp only [List.nil_append]; rw [nl (edge hx.1), nl (edge hx.2)]; exact .err
  | cons c u =>
    by_cases e : c = '"'
    · subst e
      rcases Sh.quote hu.1 with ⟨w, t, rfl, h1, h2, h3⟩ | ⟨w, t, rfl, h1, h2⟩
      · have key : ∀ {z}, Edge z → string ('"' :: (w ++ '"' :: t) ++ z) = .ok (.String w) (t ++ z) := fun {z} hz => by
          have := Lk.string_short (r := t ++ z) h1 fun e => by
            have := h2 e
            cases t with
            | nil => exact Next.imp hz fun c h => by subst h; decide
            | cons d t => exact next_cons.2 (next_cons (P := (· ≠ '"')).1 this)
          simpa using this
        rw [key (edge hx.1), key (edge hx.2)]
        exact .ok (W.drop (c := '"' :: (w ++ ['"'])) (by simpa using hu) h3)
      · have key : ∀ z, string ('"' :: '"' :: '"' :: (w ++ '"' :: '"' :: '"' :: t) ++ z) =
            .ok (.String w) (t ++ z) := fun z => by
          have := Lk.string_long (r := t ++ z) h1
          simpa using this
        rw [key, key]
        exact .ok (W.drop (c := '"' :: '"' :: '"' :: (w ++ ['"', '"', '"'])) (by simpa using hu) h2)
    · simp only [List.cons_append]; rw [string_err e, string_err e]; exact .err

theorem s_character : S n character character := fun u b b' hu hx => by
  have nl : ∀ {z}, Edge z → character z = .err := fun {z} hz => by
    cases z with
    | nil => rfl
    | cons c z => cases next_cons.1 hz; exact character_err (by decide)
  cases u with
  | nil => simp only [List.nil_append]; rw [nl (edge hx.1), nl (edge hx.2)]; exact .err
  | cons c u =>
    by_cases e : c = '\''
    · subst e
      obtain ⟨w, c, t, rfl, h1, h2⟩ := Sh.apostrophe hu.1
      have key : ∀ z, character ('\'' :: (w ++ '\'' :: t) ++ z) = .ok (.Character c) (t ++ z) := fun z =>
        character_iff.2 ⟨w, c, rfl, by simp, h1⟩
      rw [key, key]
      exact .ok (W.drop (c := '\'' :: (w ++ ['\''])) (by simpa using hu) h2)
    · simp only [List.cons_append]; rw [character_err e, character_err e]; exact .err

/-! ### Layout -/

/-- White space inside the text. -/
theorem tw_inside {f : Char → Bool} (hf : ∀ c, f c = true → White c) {u : Str} (hu : W u) (hne : u ≠ []) (b : Str) :
    ((u ++ b).takeWhile f = u.takeWhile f ∧ (u ++ b).dropWhile f = u.dropWhile f ++ b) ∧ u.dropWhile f ≠ [] ∧
      W (u.dropWhile f) := by
  have hn : u.dropWhile f ≠ [] := fun e => by
    obtain ⟨v, c, rfl⟩ : ∃ v c, u = v ++ [c] := ⟨_, _, (List.dropLast_concat_getLast hne).symm⟩
    have hc := (hu.2.1 v c rfl).1
    have h := List.takeWhile_append_dropWhile (p := f) (l := v ++ [c])
    rw [e, List.append_nil] at h
    have := List.all_takeWhile (p := f) (l := v ++ [c])
    rw [h] at this
    exact hc (hf c (List.all_eq_true.1 this c (by simp)))
  refine ⟨?_, hn, w_drop (fun c h => Sh.soft_white (hf c h)) hu⟩
  clear hu hne
  induction u with
  | nil => exact absurd rfl hn
  | cons c u ih =>
    cases e : f c with
    | true => rw [List.dropWhile_cons, e] at hn; simp [e, ih hn]
    | false => simp [e]

theorem append_last {v w : Str} {c d : Char} (h : v ++ [c] = w ++ [d]) : v = w ∧ c = d := by
  have := List.append_inj' h rfl
  exact ⟨this.1, by simpa using this.2⟩

/-- The gap at the start of a text lies inside the text. -/
theorem inside {u : Str} (hu : W u) (hne : u ≠ []) : ∃ ls last w, Lk.D u ls last w ∧ w ≠ [] ∧ Shut w ∧ last.comment = none ∧
    (∃ g, u = g ++ w ∧ ∀ v c, g = v ++ [c] → White c) := by
  induction hk : u.length using Nat.strongRecOn generalizing u with
  | _ k ih =>
    subst hk
    cases u with
    | nil => exact absurd rfl hne
    | cons c u =>
    have ne : White c → u ≠ [] := fun hc e => (hu.2.1 [] c (by rw [e]; rfl)).1 hc
    have front : ∀ {x : Str} {g : Str}, (∀ v c, x = v ++ [c] → White c) → (∀ v c, g = v ++ [c] → White c) →
        ∀ v c, x ++ g = v ++ [c] → White c := by
      intro x g hx hg v c e
      rcases List.eq_nil_or_concat g with rfl | ⟨g', d, rfl⟩
      · rw [List.append_nil] at e; exact hx v c e
      · rw [List.concat_eq_append] at e hg
        rw [← List.append_assoc] at e
        obtain ⟨-, rfl⟩ := append_last e
        exact hg _ _ rfl
    have one : ∀ {x : Char}, White x → ∀ v c, [x] = v ++ [c] → White c := fun {x} h v c e => by
      obtain ⟨-, rfl⟩ := append_last (v := []) (w := v) (c := x) (d := c) e
      exact h
    by_cases h1 : c = ' '
    · subst h1
      obtain ⟨ls, last, w, hd, hw, hs, hc, g, e, hg⟩ := ih u.length (by simp) (hu.tail (Sh.soft hu.1 (by decide))) (ne (by decide)) rfl
      obtain ⟨ls', last', hd', -, hc', -⟩ := Lk.d_sp 1 hd
      exact ⟨ls', last', w, hd', hw, hs, hc'.trans hc, ' ' :: g, by rw [e]; rfl, front (x := [' ']) (one (by decide)) hg⟩
    by_cases h2 : c = '\n'
    · subst h2
      obtain ⟨ls, last, w, hd, hw, hs, hc, g, e, hg⟩ := ih u.length (by simp) (hu.tail (Sh.soft hu.1 (by decide))) (ne (by decide)) rfl
      exact ⟨_, last, w, Lk.d_newline hd, hw, hs, hc, '\n' :: g, by rw [e]; rfl, front (x := ['\n']) (one (by decide)) hg⟩
    have stop : NoGap (c :: u) → ∃ ls last w, Lk.D (c :: u) ls last w ∧ w ≠ [] ∧ Shut w ∧ last.comment = none ∧
        (∃ g, c :: u = g ++ w ∧ ∀ v c, g = v ++ [c] → White c) := fun h =>
      ⟨[], ⟨0, none⟩, c :: u, Lk.d_stop h, by simp, hu.1, rfl, [], rfl, fun v c e => by simp at e⟩
    by_cases h3 : c = '-'
    · subst h3
      rcases Sh.dash hu.1 with ⟨h, -⟩ | ⟨w, t, rfl, hw, -, ht⟩
      · refine stop ⟨next_cons.2 (by decide), fun t e => ?_⟩
        obtain ⟨-, rfl⟩ := List.cons.inj e
        exact next_cons.1 h rfl
      · have hW : W ('\n' :: t) := W.drop (c := '-' :: '-' :: w) (by simpa using hu) ht
        obtain ⟨ls, last, r, hd, hr, hs, hc, g, e, hg⟩ := ih ('\n' :: t).length (by simp; omega) hW (by simp) rfl
        rcases Lk.d_comment hw (next_cons.2 rfl) hd with ⟨e, -⟩ | ⟨-, ls', -, hd'⟩
        · cases e
        · refine ⟨ls', last, r, hd', hr, hs, hc, '-' :: '-' :: (w ++ g), by rw [e]; simp, fun v c ev => ?_⟩
          rcases List.eq_nil_or_concat g with rfl | ⟨g', d, rfl⟩
          · cases e
            exact absurd rfl ((next_cons (P := fun c => c ≠ ' ' ∧ c ≠ '\n')).1 (hd.stop.elim (fun h => h.2.1) fun h => absurd h.2 hr)).2
          · rw [List.concat_eq_append] at ev hg
            rw [← List.append_assoc] at ev
            obtain ⟨-, rfl⟩ := append_last (v := '-' :: '-' :: (w ++ g')) ev
            exact hg _ _ rfl
    · refine stop ⟨next_cons.2 ⟨h1, h2⟩, fun t e => h3 (List.cons.inj e).1⟩

/-- A gap behind which the lines are indented less. -/
theorem gap_edge' {b : Str} (hb : Below n b) {ind : Nat} {ir : IR} (hi : n ≤ ind ∨ ir = .GT ∧ n ≤ ind + 1) : gap ind ir b = .err := by
  cases hb with
  | nil => exact gap_none noGap_nil ind ir
  | @line ls last t h1 h2 h3 h4 =>
    have hg : Gap ('\n' :: (gapText ls last ++ t)) (⟨0, none⟩ :: ls) last t :=
      ⟨rfl, by simp [gapText, Line.text], fun l hl => by
        rcases List.mem_cons.1 hl with rfl | hl
        · exact Lk.line_none 0
        · exact (h1 l hl).1, h2, h4.imp (fun h => ⟨h.1, h.2.1⟩) id⟩
    rcases err_or_ok (fun k => cons_gap k ind ir) ('\n' :: (gapText ls last ++ t)) with e | ⟨v, r, e, -⟩
    · exact e
    · obtain ⟨-, ⟨h, -⟩ | ⟨-, -, h⟩⟩ := (gap_of_gap hg ind ir).1 e
      · cases h
      · have hc : column last ≤ last.spaces := by unfold column; split <;> omega
        have hm := Nat.mod_le (column last) 4294967296
        rcases hi with hi | ⟨rfl, hi⟩
        · cases ir <;> simp only [Rel] at h <;> omega
        · simp only [Rel] at h; omega

theorem gap_edge {b : Str} (hb : Below n b) {ind : Nat} (hi : n ≤ ind) (ir : IR) : gap ind ir b = .err := gap_edge' hb (.inl hi)

/-- A gap fails, or it ends inside the text and gives an indentation that is not smaller. -/
theorem gap_inside {u b b' : Str} (hu : W u) (hne : u ≠ []) (hb : Edge b) (hb' : Edge b') (ind : Nat) (ir : IR) :
    (gap ind ir (u ++ b) = .err ∧ gap ind ir (u ++ b') = .err) ∨
    ∃ j g w, ind ≤ j ∧ u = g ++ w ∧ g ≠ [] ∧ w ≠ [] ∧ W w ∧ (∀ v c, g = v ++ [c] → White c) ∧
      gap ind ir (u ++ b) = .ok j (w ++ b) ∧ gap ind ir (u ++ b') = .ok j (w ++ b') := by
  obtain ⟨ls, last, w, hd, hw, hs, hc, g, e, hg⟩ := inside hu hne
  have hW : W w := W.drop (c := g) (e ▸ hu) hs
  have eg : g = gapText ls last := List.append_cancel_right (e.symm.trans hd.split)
  have hn : NoGap w := hd.stop.elim (fun h => h.2) fun h => absurd hc h.1
  have ext : ∀ {z}, Edge z → NoGap (w ++ z) := fun {z} hz => by
    cases w with
    | nil => exact absurd rfl hw
    | cons c w =>
      refine ⟨next_cons.2 (next_cons (P := fun c => c ≠ ' ' ∧ c ≠ '\n').1 hn.1), fun t et => ?_⟩
      obtain ⟨rfl, et2⟩ := List.cons.inj et
      cases w with
      | nil =>
        have et : z = '-' :: t := et2
        subst et
        exact absurd (next_cons.1 hz) (by decide)
      | cons d w =>
        obtain ⟨rfl, -⟩ := List.cons.inj et2
        exact hn.2 w rfl
  by_cases hg0 : g = []
  · subst hg0
    cases e
    exact .inl ⟨gap_none (ext hb) ind ir, gap_none (ext hb') ind ir⟩
  · have hG : ∀ {z}, Edge z → Gap (u ++ z) ls last (w ++ z) := fun {z} hz =>
      ⟨by rw [hd.split, List.append_assoc], eg ▸ hg0, hd.lines, hd.lastOk, .inl ⟨hc, ext hz⟩⟩
    have fwd : ∀ {z z' j}, Edge z → Edge z' → gap ind ir (u ++ z) = .ok j (w ++ z) → gap ind ir (u ++ z') = .ok j (w ++ z') :=
      fun hz hz' h => (gap_of_gap (hG hz') ind ir).2 ⟨rfl, ((gap_of_gap (hG hz) ind ir).1 h).2⟩
    have back : ∀ {z j r}, Edge z → gap ind ir (u ++ z) = .ok j r → r = w ++ z :=
      fun hz h => ((gap_of_gap (hG hz) ind ir).1 h).1
    rcases err_or_ok (fun k => cons_gap k ind ir) (u ++ b) with e1 | ⟨j, r, e1, -⟩
    · refine .inl ⟨e1, ?_⟩
      rcases err_or_ok (fun k => cons_gap k ind ir) (u ++ b') with e2 | ⟨j, r, e2, -⟩
      · exact e2
      · cases back hb' e2
        rw [fwd hb' hb e2] at e1; cases e1
    · cases back hb e1
      refine .inr ⟨j, g, w, ?_, e, hg0, hw, hW, hg, e1, fwd hb hb' e1⟩
      obtain ⟨-, ⟨-, h⟩ | ⟨-, h, h'⟩⟩ := (gap_of_gap (hG hb) ind ir).1 e1
      · rw [if_pos hc] at h; omega
      · rw [← h] at h'
        cases ir <;> simp only [Rel] at h' <;> omega

/-- The same before lines that are indented less. -/
theorem gap_split {u b b' : Str} (hu : W u) (hx : Bs n b b') {ind : Nat} (hi : n ≤ ind) (ir : IR) :
    (gap ind ir (u ++ b) = .err ∧ gap ind ir (u ++ b') = .err) ∨
    ∃ j g w, n ≤ j ∧ u = g ++ w ∧ g ≠ [] ∧ w ≠ [] ∧ W w ∧ (∀ v c, g = v ++ [c] → White c) ∧
      gap ind ir (u ++ b) = .ok j (w ++ b) ∧ gap ind ir (u ++ b') = .ok j (w ++ b') := by
  by_cases hne : u = []
  · subst hne
    exact .inl ⟨gap_edge hx.1 hi ir, gap_edge hx.2 hi ir⟩
  · rcases gap_inside hu hne (edge hx.1) (edge hx.2) ind ir with h | ⟨j, g, w, h, h'⟩
    · exact .inl h
    · exact .inr ⟨j, g, w, Nat.le_trans hi h, h'⟩

theorem s_gapBind {ind : Nat} (hi : n ≤ ind) (ir : IR) {f g : Nat → Parser α} (hf : ∀ j, n ≤ j → S n (f j) (g j)) :
    S n (gap ind ir >>= f) (gap ind ir >>= g) := fun u b b' hu hx => by
  simp only [bind_apply]
  rcases gap_split hu hx hi ir with ⟨e, e'⟩ | ⟨j, _, w, hj, -, -, -, hw, -, e, e'⟩
  · rw [e, e']; exact .err
  · rw [e, e', andThen_ok, andThen_ok]; exact hf j hj w b b' hw hx
theorem s_gap {ind : Nat} (hi : n ≤ ind) (ir : IR) : S n (gap ind ir) (gap ind ir) := fun u b b' hu hx => by
  rcases gap_split hu hx hi ir with ⟨e, e'⟩ | ⟨j, _, w, hj, -, -, -, hw, -, e, e'⟩
  · rw [e, e']; exact .err
  · rw [e, e']; exact .ok hw

theorem sameIndent_eq (ind : Nat) (z : Str) : newLineAndSameIndent ind ('\n' :: z) =
    (spaces0 z).andThen fun v r => if asU32 v.length = ind then .ok ind r else .err := by
  simp only [newLineAndSameIndent, mapRes, preceded, pmap, bind_apply]
  rw [char_cons, andThen_ok, bind_apply]
  cases spaces0 z with
  | ok v r =>
    simp only [andThen_ok]
    show Res.andThen (.ok (asU32 v.length) r) _ = _
    rw [andThen_ok]
    by_cases h : asU32 v.length = ind
    · simp [h]; rfl
    · simp [h]; rfl
  | err => rfl
  | panic => rfl
  | div => rfl

theorem s_sameIndent {ind : Nat} (hi : n ≤ ind) : S n (newLineAndSameIndent ind) (newLineAndSameIndent ind) := fun u b b' hu hx => by
  have nl : ∀ {z}, Below n z → newLineAndSameIndent ind z = .err := fun {z} hz => by
    cases hz with
    | nil => rfl
    | @line ls last t h1 h2 h3 h4 =>
      have hk : ∃ k y, gapText ls last ++ t = sp k ++ y ∧ k < n ∧ Next (· ≠ ' ') y := by
        cases ls with
        | nil =>
          refine ⟨last.spaces, commentText last.comment ++ t, by simp [gapText, Line.text], h3, ?_⟩
          rcases h4 with ⟨h, hn, -⟩ | ⟨h, rfl⟩
          · rw [h]; exact Next.imp hn.1 fun c h => h.1
          · cases hc : last.comment with
            | none => exact absurd hc h
            | some w => exact next_cons.2 (by decide)
        | cons l ls =>
          refine ⟨l.spaces, commentText l.comment ++ '\n' :: (gapText ls last ++ t), by simp [gapText, Line.text],
            (h1 l (by simp)).2, ?_⟩
          cases hc : l.comment with
          | none => exact next_cons.2 (by decide)
          | some w => exact next_cons.2 (by decide)
      obtain ⟨k, y, e, hk, hy⟩ := hk
      rw [e]
      have e0 : spaces0 (sp k ++ y) = .ok (sp k) y := spaces0_iff.2 ⟨rfl, by simp [sp], hy⟩
      have hne : ¬ k % 4294967296 = ind := by
        have := Nat.mod_le k 4294967296
        omega
      rw [sameIndent_eq, e0, andThen_ok, if_neg]
      simpa [sp, asU32] using hne
  cases u with
  | nil => simp only [List.nil_append]; rw [nl hx.1, nl hx.2]; exact .err
  | cons c u =>
    by_cases e : c = '\n'
    · subst e
      have hne : u ≠ [] := fun e => (hu.2.1 [] '\n' (by rw [e]; rfl)).1 (by decide)
      have hW := hu.tail (Sh.soft hu.1 (by decide))
      have hf : ∀ c : Char, (c == ' ') = true → White c := by intro c h; simp at h; subst h; decide
      have key : ∀ z, spaces0 (u ++ z) = .ok (u.takeWhile fun c => c == ' ') (u.dropWhile (fun c => c == ' ') ++ z) := fun z => by
        obtain ⟨⟨e1, e2⟩, -⟩ := tw_inside hf hW hne z
        simp only [spaces0, pmap_apply, opt_apply, takeWhile1, e1, e2]
        cases h : u.takeWhile fun c => c == ' ' with
        | nil =>
          have := List.takeWhile_append_dropWhile (p := fun c => c == ' ') (l := u)
          rw [h, List.nil_append] at this
          simp [this]
        | cons => simp
      have hW' := (tw_inside hf hW hne []).2.2
      simp only [List.cons_append]
      rw [sameIndent_eq, sameIndent_eq, key, key, andThen_ok, andThen_ok]
      split
      · exact .ok hW'
      · exact .err
    · have no : ∀ z, newLineAndSameIndent ind (c :: z) = .err := fun z => by
        simp only [newLineAndSameIndent, mapRes, preceded, pmap, bind_apply]
        rw [char_cons_ne _ e]
        rfl
      simp only [List.cons_append]; rw [no, no]; exact .err

theorem s_operator : S n operator operator := fun u b b' hu hx => by
  by_cases h : c!"--" <+: u
  · obtain ⟨t, rfl⟩ := h
    rcases Sh.dash hu.1 with ⟨h, -⟩ | ⟨w, t, e, -, h2, -⟩
    · exact absurd rfl (next_cons.1 h)
    · obtain rfl := (List.cons.inj e).2
      have key : ∀ z, operator (c!"--" ++ (w ++ '\n' :: t) ++ z) = .err := fun z => by
        have := Lk.operator_dashes (u := w) (r := '\n' :: (t ++ z)) h2 (next_cons.2 rfl)
        simpa using this
      rw [key, key]
      exact .err
  · have hc : isOpChar '\n' = false := by decide
    rw [Lk.operator_eq, Lk.operator_eq, (tw hc (edge hx.1)).1, (tw hc (edge hx.1)).2, (tw hc (edge hx.2)).1,
      (tw hc (edge hx.2)).2]
    split
    · exact .err
    · split
      · exact .err
      · have := hu
        rw [← List.takeWhile_append_dropWhile (p := isOpChar) (l := u)] at this
        exact .ok (this.drop (Sh.op_run hu.1 h))

/-- White space inside the text. -/
theorem white_inside {f : Char → Bool} (hf : ∀ c, f c = true → White c) {u : Str} (hu : W u) (hne : u ≠ []) (b b' : Str) :
    (takeWhile1 f (u ++ b) = .err ∧ takeWhile1 f (u ++ b') = .err) ∨
    ∃ v w, w ≠ [] ∧ W w ∧ takeWhile1 f (u ++ b) = .ok v (w ++ b) ∧ takeWhile1 f (u ++ b') = .ok v (w ++ b') := by
  obtain ⟨⟨e1, e2⟩, h1, h2⟩ := tw_inside hf hu hne b
  obtain ⟨⟨e3, e4⟩, -⟩ := tw_inside hf hu hne b'
  unfold takeWhile1
  rw [e1, e2, e3, e4]
  split
  · exact .inl ⟨rfl, rfl⟩
  · exact .inr ⟨_, _, h1, h2, rfl, rfl⟩

theorem tag_ok {k s v r : Str} (h : tag k s = .ok v r) : s = k ++ r := (tag_eq_ok.1 h).2

theorem drop_sp (f : Char → Bool) (hf : f ' ' = true) (k : Nat) (y : Str) : (sp k ++ y).dropWhile f = y.dropWhile f := by
  induction k with
  | zero => rfl
  | succ k ih => show (' ' :: (sp k ++ y)).dropWhile f = _; rw [List.dropWhile_cons, hf]; exact ih

/-- No arrow stands behind the line end. -/
theorem arrowSep_edge {b : Str} (hb : Below n b) : arrowSep b = .err := by
  cases hb with
  | nil => rfl
  | @line ls last t h1 h2 h3 h4 =>
    let f : Char → Bool := fun c => c == ' ' || c == '\n'
    have key : ∀ ls, ¬ c!"->" <+: (gapText ls last ++ t).dropWhile f := by
      have hsome : ∀ {w y : Str}, ¬ c!"->" <+: (commentText (some w) ++ y).dropWhile f := fun {w y} h => by
        obtain ⟨z, e⟩ := h
        have e : '-' :: '>' :: z = '-' :: '-' :: (w ++ y) := e
        simp at e
      intro ls
      induction ls with
      | nil =>
        simp only [gapText, Line.text, List.append_assoc]
        rw [drop_sp f rfl]
        rcases h4 with ⟨h, hn, ht⟩ | ⟨h, rfl⟩
        · rw [h]
          have : t.dropWhile f = t := by
            cases t with
            | nil => rfl
            | cons c t =>
              have := (next_cons (P := fun c => c ≠ ' ' ∧ c ≠ '\n')).1 hn.1
              simp [f, this.1, this.2]
          show ¬ c!"->" <+: t.dropWhile f
          rwa [this]
        · cases hc : last.comment with
          | none => exact absurd hc h
          | some w => exact hsome
      | cons l ls ih =>
        simp only [gapText, Line.text, List.append_assoc]
        rw [drop_sp f rfl]
        cases hc : l.comment with
        | none => show ¬ c!"->" <+: ('\n' :: (gapText ls last ++ t)).dropWhile f; rw [List.dropWhile_cons]; exact ih
        | some w => exact hsome
    have key2 : ¬ c!"->" <+: ('\n' :: (gapText ls last ++ t)).dropWhile f := by rw [List.dropWhile_cons]; exact key ls
    have ht : tag c!"->" (('\n' :: (gapText ls last ++ t)).dropWhile f) = .err := by
      rcases err_or_ok (fun k => cons_tag k '-' c!">") (('\n' :: (gapText ls last ++ t)).dropWhile f) with e | ⟨v, r, e, -⟩
      · exact e
      · exact absurd ⟨r, (tag_ok e).symm⟩ key2
    unfold arrowSep
    rw [delimited_apply]
    have hs : ∃ v, spacesAndNewlines ('\n' :: (gapText ls last ++ t)) = .ok v (('\n' :: (gapText ls last ++ t)).dropWhile f) := by
      unfold spacesAndNewlines takeWhile1
      rw [List.takeWhile_cons]
      exact ⟨_, rfl⟩
    obtain ⟨v, e⟩ := hs
    rw [e, andThen_ok, ht]
    rfl

theorem not_op {u v : Str} {c : Char} (hu : W u) (h : OpChar c) : u ≠ v ++ [c] := fun e => (hu.2.1 v c e).2 h

theorem s_arrowSep : S n arrowSep arrowSep := fun u b b' hu hx => by
  by_cases hne : u = []
  · subst hne
    simp only [List.nil_append]; rw [arrowSep_edge hx.1, arrowSep_edge hx.2]; exact .err
  · have hf : ∀ c : Char, (c == ' ' || c == '\n') = true → White c := by
      intro c h; simp at h; rcases h with h | h <;> subst h <;> decide
    unfold arrowSep
    rw [delimited_apply, delimited_apply]
    rcases white_inside hf hu hne b b' with ⟨e, e'⟩ | ⟨v, w, hw, hW, e, e'⟩
    · unfold spacesAndNewlines; rw [e, e']; exact .err
    · unfold spacesAndNewlines
      rw [e, e', andThen_ok, andThen_ok]
      have h := s_arrow w b b' hW hx
      cases e1 : tag c!"->" (w ++ b) with
      | ok v1 r1 =>
        cases e2 : tag c!"->" (w ++ b') with
        | ok v2 r2 =>
          rw [e1, e2] at h
          cases h with
          | @ok _ w2 hW2 =>
            have hw2 : w2 ≠ [] := by
              rintro rfl
              have := tag_ok e1
              rw [List.nil_append] at this
              exact not_op (v := ['-']) (c := '>') hW (by decide) (List.append_cancel_right this)
            rw [andThen_ok, andThen_ok]
            rcases white_inside hf hW2 hw2 b b' with ⟨e3, e4⟩ | ⟨v3, w3, -, hW3, e3, e4⟩
            · rw [e3, e4]; exact .err
            · rw [e3, e4]; exact .ok hW3
          | undefL h => rcases h with h | h <;> cases h
          | undefR h => rcases h with h | h <;> cases h
        | err => rw [e1, e2] at h; cases h with
          | undefL h => rcases h with h | h <;> cases h
          | undefR h => rcases h with h | h <;> cases h
        | panic => exact .undefR (.inr rfl)
        | div => exact .undefR (.inl rfl)
      | err =>
        cases e2 : tag c!"->" (w ++ b') with
        | ok v2 r2 => rw [e1, e2] at h; cases h with
          | undefL h => rcases h with h | h <;> cases h
          | undefR h => rcases h with h | h <;> cases h
        | err => exact .err
        | panic => exact .undefR (.inr rfl)
        | div => exact .undefR (.inl rfl)
      | panic => exact .undefL (.inr rfl)
      | div => exact .undefL (.inl rfl)

/-- The second operand of an operator. -/
theorem s_operand {ind : Nat} (hi : n ≤ ind) {f g : Expr → Parser α} (hf : ∀ v, S n (f v) (g v)) :
    S n (gap ind .GTE >>= fun _ => operatorOrAs >>= fun o => multispace >>= fun _ => f o)
      (gap ind .GTE >>= fun _ => operatorOrAs >>= fun o => multispace >>= fun _ => g o) := fun u b b' hu hx => by
  simp only [bind_apply]
  rcases gap_split hu hx hi .GTE with ⟨e, e'⟩ | ⟨j, pre, w, hj, hpw, hpre, hw, hW, hwhite, e, e'⟩
  · rw [e, e']; exact .err
  · rw [e, e', andThen_ok, andThen_ok]
    have h := (s_pmap (fun op => Expr.Variable [op]) (s_alt (s_tag (n := n) (k := c!"as") (by decide)) s_operator)) w b b' hW hx
    have more : ∀ {v w2}, operatorOrAs (w ++ b) = .ok v (w2 ++ b) → w2 ≠ [] := by
      rintro v w2 e rfl
      obtain ⟨o, e, -⟩ := pmap_eq_ok.1 e
      rcases alt_eq_ok.1 e with e | ⟨-, e⟩
      · have := tag_ok e
        rw [List.nil_append] at this
        have hwas : w = c!"as" := List.append_cancel_right this
        rcases List.eq_nil_or_concat pre with rfl | ⟨v, c, rfl⟩
        · exact hpre rfl
        · rw [List.concat_eq_append] at hpw hwhite
          exact hu.2.2 v c (by rw [hpw, hwas, List.append_assoc]; rfl) (hwhite v c rfl)
      · obtain ⟨e1, ⟨h1, h2, -⟩, -⟩ := operator_iff.1 e
        rw [List.nil_append] at e1
        have hwo : w = o := List.append_cancel_right e1
        rcases List.eq_nil_or_concat o with rfl | ⟨v, c, rfl⟩
        · exact h1 rfl
        · rw [List.concat_eq_append] at hwo h2
          exact not_op hW (h2 c (by simp)) hwo
    have h : Sm b b' (operatorOrAs (w ++ b)) (operatorOrAs (w ++ b')) := h
    revert h
    rw [bind_apply, bind_apply]
    cases e1 : operatorOrAs (w ++ b) with
    | ok v1 r1 =>
      generalize operatorOrAs (w ++ b') = y
      intro h
      cases h with
      | @ok _ w2 hW2 =>
        rw [andThen_ok, andThen_ok, bind_apply, bind_apply]
        rcases white_inside (f := isMultispace) (fun _ h => isMultispace_iff.1 h) hW2 (more e1) b b' with ⟨e3, e4⟩ | ⟨v3, w3, -, hW3, e3, e4⟩
        · unfold multispace; rw [e3, e4]; exact .err
        · unfold multispace; rw [e3, e4, andThen_ok, andThen_ok]; exact hf _ _ _ _ hW3 hx
      | undefL h => rcases h with h | h <;> cases h
      | undefR h => exact .undefR (undef_andThen h)
    | err =>
      generalize operatorOrAs (w ++ b') = y
      intro h
      cases h with
      | err => exact .err
      | undefL h => rcases h with h | h <;> cases h
      | undefR h => exact .undefR (undef_andThen h)
    | panic => intro _; exact .undefL (.inr rfl)
    | div => intro _; exact .undefL (.inl rfl)

/-! ### Brackets -/

/-- Something in brackets. -/
theorem s_open {o c : Char} (ho : Bracket o) {p q : Parser α} (h : Sh.C c p q) :
    S n (char o >>= fun _ => p) (char o >>= fun _ => q) := fun u b b' hu hx => by
  simp only [bind_apply]
  cases u with
  | nil =>
    have : o ≠ '\n' := by rintro rfl; exact absurd ho (by decide)
    simp only [List.nil_append]; rw [char_edge (edge hx.1) this, char_edge (edge hx.2) this]; exact .err
  | cons d u =>
    by_cases e : d = o
    · subst e
      obtain ⟨y, a, t, h1, rfl, h2, h3⟩ := Sh.opened hu.1 ho
      simp only [List.cons_append, List.append_assoc]
      rw [char_cons, char_cons, andThen_ok, andThen_ok]
      rcases h a y (t ++ b) (t ++ b') h2 (Sh.partners_close h1) with ⟨-, v, e1, e2⟩ | ⟨e1, e2⟩ | e | e
      · rw [e1, e2]; exact .ok (W.drop (c := d :: (a ++ [y])) (by simpa using hu) h3)
      · rw [e1, e2]; exact .err
      · exact .undefL e
      · exact .undefR e
    · simp only [List.cons_append]; rw [char_cons_ne _ e, char_cons_ne _ e]; exact .err

theorem s_between {o c : Char} (ho : Bracket o) (hc : Close c) {p q : Parser α} (h : Sh.S p q) :
    S n (delimited (char o) p (char c)) (delimited (char o) q (char c)) :=
  s_open ho (Sh.c_bind h fun v => Sh.c_close hc v)
theorem s_wide {o c : Char} (ho : Bracket o) (hc : Close c) {a b : Parser α} (ha : Sh.S a a) (hb : Sh.S b b)
    {p q : Parser β} (h : Sh.S p q) : S n (delimited (preceded (char o) a) p (terminated b (char c)))
      (delimited (preceded (char o) a) q (terminated b (char c))) :=
  s_congr (s_open ho (Sh.c_bind ha fun _ => Sh.c_bind h fun v => Sh.c_bind hb fun _ => Sh.c_close hc v)) Sh.wide_eq Sh.wide_eq

/-! ### Types -/

section
variable {rc rc' : TyRec} (h : Sh.TyOk rc rc') {ind : Nat}
include h

theorem s_typeTuple : S n (typeTuple rc ind) (typeTuple rc' ind) :=
  s_pmap _ (s_wide (by decide) (by decide) (Sh.s_opt (Sh.s_gap ind _)) (Sh.s_opt (Sh.s_gap ind _))
    (Sh.s_sepList (Sh.s_commaSep ind) (h.ty ind)))
theorem s_typeRecordConstructor : S n (typeRecordConstructor rc ind) (typeRecordConstructor rc' ind) :=
  s_between (by decide) (by decide) <|
    Sh.s_bind (Sh.s_gap ind _) fun _ => Sh.s_bind Sh.s_typeVariable fun _ => Sh.s_bind (Sh.s_gap ind _) fun _ =>
    Sh.s_bind (Sh.s_char (by decide)) fun _ => Sh.s_bind (Sh.s_gap ind _) fun _ =>
    Sh.s_bind (Sh.s_typeRecordPairs h ind) fun _ => Sh.s_bind (Sh.s_gap ind _) fun _ => Sh.s_pure _
theorem s_typeRecord : S n (typeRecord rc ind) (typeRecord rc' ind) :=
  s_wide (by decide) (by decide) (Sh.s_opt (Sh.s_gap ind _)) (Sh.s_opt (Sh.s_gap ind _))
    (Sh.s_pmap _ (Sh.s_typeRecordPairs h ind))
theorem s_typeParens : S n (typeParens rc ind) (typeParens rc' ind) :=
  s_wide (by decide) (by decide) (Sh.s_opt (Sh.s_gap ind _)) (Sh.s_opt (Sh.s_gap ind _)) (h.ann ind)
theorem s_typeParameter : S n (typeParameter rc ind) (typeParameter rc' ind) :=
  s_alt s_typeVariable <| s_alt (s_pmap _ s_dotted) <| s_alt (s_typeRecordConstructor h) <|
  s_alt (s_typeRecord h) <| s_alt (s_typeTuple h) (s_typeParens h)

theorem s_typeArg (hi : n ≤ ind + 1) : S n (typeArg rc ind) (typeArg rc' ind) := fun u b b' hu hx => by
  unfold typeArg
  simp only [bind_apply]
  by_cases hne : u = []
  · subst hne
    rw [List.nil_append, List.nil_append, gap_edge' hx.1 (.inr ⟨rfl, hi⟩), gap_edge' hx.2 (.inr ⟨rfl, hi⟩)]
    exact .err
  · rcases gap_inside hu hne (edge hx.1) (edge hx.2) ind .GT with ⟨e, e'⟩ | ⟨j, _, w, -, -, -, -, hw, -, e, e'⟩
    · rw [e, e']; exact .err
    · rw [e, e', andThen_ok, andThen_ok]
      exact s_typeParameter h w b b' hw hx

variable (hi : n ≤ ind + 1)
include hi
theorem s_typeConstructorF : S n (typeConstructorF rc ind) (typeConstructorF rc' ind) :=
  s_bind s_dotted fun _ => s_bind (s_many0 (s_typeArg h hi)) fun _ => s_pure _
theorem s_typeF : S n (typeF rc ind) (typeF rc' ind) :=
  s_alt (s_typeConstructorF h hi) <| s_alt s_typeVariable <| s_alt (s_typeRecordConstructor h) <|
  s_alt (s_typeRecord h) <| s_alt (s_typeTuple h) (s_typeParens h)
theorem s_typeAnnotationF : S n (typeAnnotationF rc ind) (typeAnnotationF rc' ind) :=
  s_congr (s_pmap _ (s_sepNonemptyList s_arrowSep (s_typeF h hi)))
    (Rn.typeAnnotationF_eq rc ind) (Rn.typeAnnotationF_eq rc' ind)
end

theorem s_typeAnnotation {ind : Nat} (hi : n ≤ ind + 1) : S n (typeAnnotation ind) (typeAnnotation ind) := fun u b b' hu hx =>
  s_typeAnnotationF (Sh.tyOk_tyN (u ++ b).length (u ++ b').length) hi u b b' hu hx

/-! ### Expressions -/

theorem s_variableP : S n variableP variableP :=
  s_alt (s_pmap _ s_loName) (s_alt (s_pmap _ s_dotted)
    (s_pmap _ (s_between (by decide) (by decide)
      (Sh.s_alt Sh.s_operator (Sh.s_takeWhile1 (by intro c h; simp at h; subst h; decide))))))
theorem s_access : S n access access :=
  s_bind s_variableP fun _ => s_bind (s_many1 (s_bind (s_char (by decide)) fun _ => s_loName)) fun _ => s_pure _
theorem s_accessFunction : S n accessFunction accessFunction :=
  s_bind (s_char (by decide)) fun _ => s_bind s_loName fun _ => s_pure _
theorem s_simplifiedRecord : S n simplifiedRecord simplifiedRecord :=
  s_pmap _ (s_between (by decide) (by decide) (Sh.s_sepList (Sh.s_char (by decide))
    (Sh.s_bind Sh.s_multispace0 fun _ => Sh.s_bind Sh.s_loName fun _ => Sh.s_bind Sh.s_multispace0 fun _ => Sh.s_pure _)))

/-- The recursive calls agree. -/
structure ExOk (n : Nat) (rc rc' : ExprRec) : Prop where
  inner : Sh.ExOk rc rc'
  outer : ∀ {ind}, n ≤ ind → S n (rc ind) (rc' ind)

section
variable {rc rc' : ExprRec} (h : ExOk n rc rc') {ind : Nat} (hi : n ≤ ind)
include h

theorem s_tuple : S n (tuple rc ind) (tuple rc' ind) :=
  s_pmap _ (s_between (by decide) (by decide)
    (Sh.s_sepList (Sh.s_char (by decide)) (Sh.s_delimited Sh.s_multispace0 (h.inner ind) Sh.s_multispace0)))
theorem s_list : S n (list rc ind) (list rc' ind) :=
  s_pmap _ (s_wide (by decide) (by decide) (Sh.s_opt (Sh.s_gap ind _)) (Sh.s_opt (Sh.s_gap ind _))
    (Sh.s_opt (Sh.s_sepList (Sh.s_commaSep ind) (h.inner ind))))
theorem s_record : S n (record rc ind) (record rc' ind) :=
  s_pmap _ (s_wide (by decide) (by decide) (Sh.s_opt (Sh.s_gap ind _)) (Sh.s_opt (Sh.s_gap ind _))
    (Sh.s_sepList (Sh.s_commaSep ind) (Sh.s_bind Sh.s_loName fun _ =>
      Sh.s_bind (Sh.s_delimited (Sh.s_opt (Sh.s_gap ind _)) (Sh.s_char (by decide)) (Sh.s_opt (Sh.s_gap ind _))) fun _ =>
      Sh.s_bind (h.inner ind) fun _ => Sh.s_pure _)))
theorem s_recordUpdate : S n (recordUpdate rc ind) (recordUpdate rc' ind) :=
  s_wide (by decide) (by decide) (Sh.s_optGap ind _) (Sh.s_gap ind _) <|
    Sh.s_bind Sh.s_loName fun _ => Sh.s_bind (Sh.s_optGap ind _) fun _ => Sh.s_bind (Sh.s_char (by decide)) fun _ =>
    Sh.s_bind Sh.s_multispace0 fun _ => Sh.s_bind (Sh.s_sepList
      (Sh.s_delimited (Sh.s_optGap ind _) (Sh.s_char (by decide)) (Sh.s_optGap ind _))
      (Sh.s_bind Sh.s_loName fun _ => Sh.s_bind Sh.s_multispace0 fun _ => Sh.s_bind (Sh.s_char (by decide)) fun _ =>
        Sh.s_bind Sh.s_multispace0 fun _ => Sh.s_bind (h.inner ind) fun _ => Sh.s_pure _)) fun _ => Sh.s_pure _
theorem s_parens : S n (parens rc ind) (parens rc' ind) := s_between (by decide) (by decide) (h.inner ind)

theorem s_termF : S n (termF rc ind) (termF rc' ind) :=
  s_alt s_access <| s_alt s_variableP <| s_alt s_accessFunction <| s_alt s_string <| s_alt s_float <| s_alt s_integer <|
  s_alt s_character <| s_alt (s_parens h) <| s_alt (s_list h) <| s_alt (s_tuple h) <|
  s_alt (s_recordUpdate h) <| s_alt (s_record h) s_simplifiedRecord

include hi
theorem s_lambda : S n (lambda rc ind) (lambda rc' ind) :=
  s_bind (s_char (by decide)) fun _ => s_bind (s_sepNonemptyList s_space1 (s_termF h)) fun _ =>
    s_bind (s_gap hi _) fun _ => s_bind s_arrow fun _ => s_gapBind hi _ fun j hj => s_bind (h.outer hj) fun _ => s_pure _

theorem s_applicationOrVar : S n (applicationOrVar rc ind) (applicationOrVar rc' ind) :=
  s_congr (s_pmap _ (s_sepNonemptyList (s_gap hi _) (s_termF h))) (Rn.applicationOrVar_eq rc ind)
    (Rn.applicationOrVar_eq rc' ind)

omit h hi in
theorem s_functionNameOrOp : S n functionNameOrOp functionNameOrOp :=
  s_alt s_loName (s_between (by decide) (by decide) Sh.s_operator)
omit h in
theorem s_functionSignature : S n (functionSignature ind) (functionSignature ind) :=
  s_bind s_functionNameOrOp fun _ => s_bind s_spaces fun _ => s_bind (s_char (by decide)) fun _ =>
    s_gapBind hi _ fun j hj => s_bind (s_typeAnnotation (Nat.le_succ_of_le hj)) fun _ => s_pure _

theorem s_functionDefinitionF : S n (functionDefinitionF rc ind) (functionDefinitionF rc' ind) :=
  s_bind s_functionNameOrOp fun _ => s_bind (s_many0 (s_preceded s_spaces (s_termF h))) fun _ =>
    s_bind s_spaces fun _ => s_bind (s_char (by decide)) fun _ => s_gapBind hi _ fun j hj => s_bind (h.outer hj) fun _ => s_pure _

theorem s_functionF : S n (functionF rc ind) (functionF rc' ind) :=
  s_bind (s_opt (s_terminated (s_functionSignature hi) (s_sameIndent hi))) fun _ =>
    s_bind (s_functionDefinitionF h hi) fun _ => s_pure _

theorem s_letBinding : S n (letBinding rc ind) (letBinding rc' ind) :=
  s_bind (s_alt s_variableP <| s_alt (s_list h) <| s_alt (s_tuple h) s_simplifiedRecord) fun _ =>
    s_bind (s_gap hi _) fun _ => s_bind (s_char (by decide)) fun _ => s_gapBind hi _ fun j hj => s_bind (h.outer hj) fun _ =>
    s_pure _

theorem s_letExpression : S n (letExpression rc ind) (letExpression rc' ind) :=
  s_bind (s_tag (by decide)) fun _ => s_gapBind hi _ fun j hj =>
    s_bind (s_sepNonemptyList (s_gap hj _) (s_alt (s_letBinding h hj) (s_pmap _ (s_functionF h hj)))) fun _ =>
    s_bind (s_gap hi _) fun _ => s_bind (s_tag (by decide)) fun _ => s_bind (s_gap hi _) fun _ =>
    s_bind (h.outer hi) fun _ => s_pure _

theorem s_caseExpression : S n (caseExpression rc ind) (caseExpression rc' ind) :=
  s_bind (s_tag (by decide)) fun _ => s_bind (s_gap hi _) fun _ => s_bind (h.outer hi) fun _ => s_bind (s_gap hi _) fun _ =>
    s_bind (s_tag (by decide)) fun _ => s_gapBind hi _ fun j hj =>
    s_bind (s_sepNonemptyList (s_gap hj _) (s_bind (h.outer hj) fun _ => s_bind (s_gap hj _) fun _ => s_bind s_arrow fun _ =>
      s_gapBind hj _ fun k hk => s_bind (h.outer hk) fun _ => s_pure _)) fun _ => s_pure _

theorem s_ifExpression : S n (ifExpression rc ind) (ifExpression rc' ind) :=
  s_bind (s_tag (by decide)) fun _ => s_bind (s_gap hi _) fun _ => s_bind (h.outer hi) fun _ => s_bind (s_gap hi _) fun _ =>
    s_bind (s_tag (by decide)) fun _ => s_gapBind hi _ fun j hj => s_bind (h.outer hj) fun _ => s_bind (s_gap hi _) fun _ =>
    s_bind (s_tag (by decide)) fun _ => s_gapBind hi _ fun k hk => s_bind (h.outer hk) fun _ => s_pure _

theorem s_binary : S n (binary rc ind) (binary rc' ind) :=
  s_bind (s_applicationOrVar h hi) fun _ => s_bind (s_opt (s_operand hi fun _ => s_bind (h.outer hi) fun _ => s_pure _))
    fun _ => s_pure _

theorem s_expressionF : S n (expressionF rc ind) (expressionF rc' ind) :=
  s_alt (s_binary h hi) <| s_alt (s_letExpression h hi) <| s_alt (s_caseExpression h hi) <|
  s_alt (s_ifExpression h hi) (s_lambda h hi)
end

theorem exOk_exprN (k m : Nat) : ExOk n (exprN k) (exprN m) := by
  refine ⟨Sh.exOk_exprN k m, ?_⟩
  induction k generalizing m with
  | zero => exact fun _ _ _ _ _ _ => .undefL (.inl rfl)
  | succ k ih =>
    cases m with
    | zero => exact fun _ _ _ _ _ _ => .undefR (.inl rfl)
    | succ m => exact fun hi => s_expressionF ⟨Sh.exOk_exprN k m, ih m⟩ hi

theorem exOk_expression : ExOk n expression expression := ⟨Sh.exOk_expression, fun hi u b b' hu hx =>
  (exOk_exprN ((u ++ b).length + 1) ((u ++ b').length + 1)).outer hi u b b' hu hx⟩

/-- One answer for everything that can follow. -/
theorem answer' {p : Parser α} {u b : Str} (h1 : Sm b [] (p (u ++ b)) (p (u ++ []))) (hp : ∀ s, p s ≠ .div ∧ p s ≠ .panic) (v : α) (r : Str) :
    p (u ++ b) = .ok v r ↔ ∃ w, p u = .ok v w ∧ r = w ++ b := by
  rw [List.append_nil] at h1
  revert h1
  cases e : p (u ++ b) with
  | ok v1 r1 =>
    cases e' : p u with
    | ok v2 r2 =>
      intro h1
      generalize hz : ([] : Str) = z at h1
      cases h1 with
      | @ok _ w hw =>
        subst hz
        rw [List.append_nil]
        constructor
        · intro e; cases e; exact ⟨w, rfl, rfl⟩
        · rintro ⟨_, e, rfl⟩; cases e; rfl
      | undefL h => rcases h with h | h <;> cases h
      | undefR h => rcases h with h | h <;> cases h
    | err =>
      intro h1
      generalize hz : ([] : Str) = z at h1
      cases h1 with
      | undefL h => rcases h with h | h <;> cases h
      | undefR h => rcases h with h | h <;> cases h
    | panic => exact absurd e' (hp _).2
    | div => exact absurd e' (hp _).1
  | err =>
    cases e' : p u with
    | ok v2 r2 =>
      intro h1
      generalize hz : ([] : Str) = z at h1
      cases h1 with
      | undefL h => rcases h with h | h <;> cases h
      | undefR h => rcases h with h | h <;> cases h
    | err => intro _; simp
    | panic => exact absurd e' (hp _).2
    | div => exact absurd e' (hp _).1
  | panic => exact absurd e (hp _).2
  | div => exact absurd e (hp _).1

theorem answer {p : Parser α} (h : S n p p) (hp : ∀ s, p s ≠ .div ∧ p s ≠ .panic) {u : Str} (hu : Shut u) (he : Ends u)
    {b : Str} (hb : Below n b) (v : α) (r : Str) :
    p (u ++ b) = .ok v r ↔ ∃ w, p u = .ok v w ∧ r = w ++ b :=
  answer' (h u b [] ⟨hu, he⟩ ⟨hb, .nil⟩) hp v r

end Of
end ElmParser
