import Verif.Proofs.Steps
import Verif.Proofs.Lex
import Verif.Spec.Alphabet

/-! A simulation: every parser treats texts alike that differ only in characters the grammar does not mention. -/
namespace ElmParser
open Spec
set_option linter.unusedSectionVars false

namespace Al

variable {α β γ δ : Type}

/-! ### Characters -/

theorem blank_of {c : Char} (h : mentioned c = true) : blank c = c := by rw [blank, if_pos h]
theorem blank_not {c : Char} (h : mentioned c = false) : blank c = ';' := by rw [blank, if_neg (by simp [h])]

theorem mentioned_blank (c : Char) : mentioned (blank c) = mentioned c := by
  cases h : mentioned c with
  | true => rw [blank_of h, h]
  | false => rw [blank_not h]; rfl

/-- A mentioned character is equal to every character like it. -/
theorem eq_of {c d : Char} (h : blank c = blank d) (hc : mentioned c = true) : d = c := by
  have hd : mentioned d = true := by rw [← mentioned_blank, ← h, mentioned_blank, hc]
  rw [blank_of hc, blank_of hd] at h
  exact h.symm

/-- A test that does not tell characters apart that are not mentioned. -/
def Fair (f : Char → Bool) : Prop := ∀ c, mentioned c = false → f c = f ';'

theorem Fair.eq {f : Char → Bool} (hf : Fair f) {c d : Char} (h : blank c = blank d) : f c = f d := by
  cases hc : mentioned c with
  | true => rw [eq_of h hc]
  | false =>
    have hd : mentioned d = false := by rw [← mentioned_blank, ← h, mentioned_blank, hc]
    rw [hf c hc, hf d hd]

theorem fair_of {f : Char → Bool} (h : ∀ c, f c = true → mentioned c = true) : Fair f := by
  intro c hc
  have h1 : f c = false := by
    cases e : f c with
    | false => rfl
    | true => rw [h c e] at hc; cases hc
  have h2 : f ';' = false := by
    cases e : f ';' with
    | false => rfl
    | true => exact absurd (h _ e) (by decide)
  rw [h1, h2]

/-- A test that no other character passes. -/
def Known (f : Char → Bool) : Prop := ∀ c, f c = true → mentioned c = true

theorem known_eq {x : Char} (h : mentioned x = true) : Known (fun c => c == x) := by
  intro c hc; rw [beq_iff_eq] at hc; rw [hc]; exact h
theorem known_lower : Known isLower := by
  intro c hc; simp only [isLower, decide_eq_true_eq] at hc; simp [mentioned, hc]
theorem known_upper : Known isUpper := by
  intro c hc; simp only [isUpper, decide_eq_true_eq] at hc; simp [mentioned, hc]
theorem known_digit : Known isDigit := by
  intro c hc; simp only [isDigit, decide_eq_true_eq] at hc; simp [mentioned, hc]
theorem known_or {f g : Char → Bool} (hf : Known f) (hg : Known g) : Known (fun c => f c || g c) := by
  intro c hc
  rcases Bool.or_eq_true _ _ ▸ hc with h | h
  · exact hf c h
  · exact hg c h
theorem known_ident : Known isIdent :=
  known_or (known_or (known_or known_lower known_upper) known_digit) (known_eq rfl)
theorem known_tyVar : Known isTyVarChar := by
  refine known_or (known_or known_lower ?_) (known_eq rfl)
  intro c hc
  simp only [decide_eq_true_eq] at hc
  have : '0' ≤ c := by
    have h := hc.1
    simp only [Char.le_def, UInt32.le_iff_toNat_le] at h ⊢
    have h1 : '1'.val.toNat = 49 := rfl
    have h2 : '0'.val.toNat = 48 := rfl
    omega
  simp [mentioned, hc.2, this]
theorem known_op : Known isOpChar := by
  intro c hc
  simp only [isOpChar, decide_eq_true_eq] at hc
  simp only [mentioned, decide_eq_true_eq]
  exact .inr (.inr (.inr (.inr hc)))
theorem known_multispace : Known isMultispace := by
  intro c hc
  simp only [isMultispace, decide_eq_true_eq] at hc
  rcases hc with rfl | rfl | rfl | rfl <;> rfl

/-! ### Texts -/

theorem alike_refl (s : Str) : Alike s s := rfl
theorem _root_.ElmParser.Spec.Alike.length {s t : Str} (h : Alike s t) : s.length = t.length := by
  have := congrArg List.length h; simpa using this
theorem alike_cons {c d : Char} {s t : Str} (h : blank c = blank d) (h' : Alike s t) : Alike (c :: s) (d :: t) := by
  unfold Alike at *; rw [List.map_cons, List.map_cons, h, h']
theorem _root_.ElmParser.Spec.Alike.inv {c : Char} {s t : Str} (h : Alike (c :: s) t) : ∃ d u, t = d :: u ∧ blank c = blank d ∧ Alike s u := by
  cases t with
  | nil => cases h
  | cons d u => exact ⟨d, u, rfl, (List.cons.inj h).1, (List.cons.inj h).2⟩
theorem _root_.ElmParser.Spec.Alike.nil {t : Str} (h : Alike [] t) : t = [] := by
  cases t with
  | nil => rfl
  | cons d u => cases h

theorem takeWhile {f : Char → Bool} (hf : Fair f) {s t : Str} (h : Alike s t) : Alike (s.takeWhile f) (t.takeWhile f) := by
  induction s generalizing t with
  | nil => rw [h.nil]; exact alike_refl _
  | cons c s ih =>
    obtain ⟨d, u, rfl, h1, h2⟩ := h.inv
    rw [List.takeWhile_cons, List.takeWhile_cons, ← hf.eq h1]
    split
    · exact alike_cons h1 (ih h2)
    · exact alike_refl _
theorem dropWhile {f : Char → Bool} (hf : Fair f) {s t : Str} (h : Alike s t) : Alike (s.dropWhile f) (t.dropWhile f) := by
  induction s generalizing t with
  | nil => rw [h.nil]; exact alike_refl _
  | cons c s ih =>
    obtain ⟨d, u, rfl, h1, h2⟩ := h.inv
    rw [List.dropWhile_cons, List.dropWhile_cons, ← hf.eq h1]
    split
    · exact ih h2
    · exact h
theorem eq_of_known {s t : Str} (h : Alike s t) (hs : ∀ c ∈ s, mentioned c = true) : t = s := by
  induction s generalizing t with
  | nil => exact h.nil
  | cons c s ih =>
    obtain ⟨d, u, rfl, h1, h2⟩ := h.inv
    rw [eq_of h1 (hs c (by simp)), ih h2 fun c hc => hs c (List.mem_cons_of_mem _ hc)]
theorem mem_takeWhile {f : Char → Bool} {s : Str} : ∀ c ∈ s.takeWhile f, f c = true := by
  induction s with
  | nil => intro c hc; cases hc
  | cons d s ih =>
    intro c hc
    rw [List.takeWhile_cons] at hc
    split at hc
    · rcases List.mem_cons.1 hc with rfl | hc
      · assumption
      · exact ih c hc
    · cases hc
theorem takeWhile_known {f : Char → Bool} (hf : Known f) {s t : Str} (h : Alike s t) : t.takeWhile f = s.takeWhile f :=
  eq_of_known (takeWhile (fair_of hf) h) fun c hc => hf c (mem_takeWhile c hc)

/-! ### The simulation -/

/-- The two runs agree: both end the same way, and if they succeed, with related values and rests. -/
inductive Sm (R : α → β → Prop) (s s' : Str) : Res α → Res β → Prop
  | ok {v v' r r'} : R v v' → Alike r r' → r <:+ s → r' <:+ s' → Sm R s s' (.ok v r) (.ok v' r')
  | err : Sm R s s' .err .err
  | panic : Sm R s s' .panic .panic
  | div : Sm R s s' .div .div

/-- The parsers `p` and `p'` agree. -/
def S (R : α → β → Prop) (p : Parser α) (p' : Parser β) : Prop :=
  ∀ s s' : Str, Alike s s' → Sm R s s' (p s) (p' s')

/-- The values become the same by `f`. -/
def Ker (f : α → β) : α → α → Prop := fun a b => f a = f b
/-- The values do not matter. -/
def Any : α → β → Prop := fun _ _ => True

variable {R : α → β → Prop} {Q : γ → δ → Prop}

theorem Sm.mono {R' : α → β → Prop} {s s' t t' : Str} {x : Res α} {y : Res β} (h : Sm R t t' x y)
    (hR : ∀ {v v'}, R v v' → R' v v') (h1 : t <:+ s) (h2 : t' <:+ s') : Sm R' s s' x y := by
  cases h with
  | ok h a k1 k2 => exact .ok (hR h) a (k1.trans h1) (k2.trans h2)
  | err => exact .err
  | panic => exact .panic
  | div => exact .div

theorem sm_andThen {s s' : Str} {x : Res α} {y : Res β} {f : α → Str → Res γ} {g : β → Str → Res δ} (h : Sm R s s' x y)
    (hf : ∀ v v' r r', R v v' → Alike r r' → Sm Q r r' (f v r) (g v' r')) :
    Sm Q s s' (x.andThen f) (y.andThen g) := by
  cases h with
  | ok h a k1 k2 => exact (hf _ _ _ _ h a).mono id k1 k2
  | err => exact .err
  | panic => exact .panic
  | div => exact .div

theorem s_mono {R' : α → β → Prop} {p : Parser α} {p' : Parser β} (h : S R p p') (hR : ∀ {v v'}, R v v' → R' v v') :
    S R' p p' := fun s s' hs => (h s s' hs).mono hR (List.suffix_refl _) (List.suffix_refl _)

theorem sm_same {s s' : Str} {v : α} {v' : β} (h : R v v') (a : Alike s s') : Sm R s s' (.ok v s) (.ok v' s') :=
  .ok h a (List.suffix_refl _) (List.suffix_refl _)
theorem s_pure {v : α} {v' : β} (h : R v v') : S R (pure v) (pure v') := fun _ _ a => sm_same h a
theorem s_fail : S R Parser.fail Parser.fail := fun _ _ _ => .err

theorem s_bind {p : Parser α} {p' : Parser β} {q : α → Parser γ} {q' : β → Parser δ} (hp : S R p p')
    (hq : ∀ v v', R v v' → S Q (q v) (q' v')) : S Q (p >>= q) (p' >>= q') :=
  fun s s' hs => sm_andThen (hp s s' hs) fun v v' r r' h a => hq v v' h r r' a

theorem s_alt {p q : Parser α} {p' q' : Parser β} (hp : S R p p') (hq : S R q q') :
    S R (p </> q) (p' </> q') := fun s s' hs => by
  simp only [alt_apply]
  have h := hp s s' hs
  revert h
  generalize p s = x, p' s' = y
  intro h
  cases h with
  | ok h a k1 k2 => exact .ok h a k1 k2
  | err => exact hq s s' hs
  | panic => exact .panic
  | div => exact .div

theorem s_pmap {p : Parser α} {p' : Parser β} {f : α → γ} {g : β → δ} (hp : S R p p')
    (h : ∀ v v', R v v' → Q (f v) (g v')) : S Q (pmap p f) (pmap p' g) :=
  s_bind hp fun v v' k => s_pure (h v v' k)

/-- Both are absent, or present and related. -/
inductive ORel (R : α → β → Prop) : Option α → Option β → Prop
  | none : ORel R none none
  | some {v v'} : R v v' → ORel R (some v) (some v')

theorem s_opt {p : Parser α} {p' : Parser β} (hp : S R p p') : S (ORel R) (opt p) (opt p') :=
  s_alt (s_pmap hp fun _ _ h => .some h) (s_pure .none)
theorem s_mapRes {p : Parser α} {p' : Parser β} {f : α → Option γ} {g : β → Option δ} (hp : S R p p')
    (h : ∀ v v', R v v' → ORel Q (f v) (g v')) : S Q (mapRes p f) (mapRes p' g) :=
  s_bind hp fun v v' k => by
    have h := h v v' k
    revert h
    generalize f v = a, g v' = b
    intro h
    cases h with
    | none => exact s_fail
    | some h => exact s_pure h

theorem s_preceded {p : Parser α} {p' : Parser β} {q : Parser γ} {q' : Parser δ} (hp : S R p p') (hq : S Q q q') :
    S Q (preceded p q) (preceded p' q') := s_bind hp fun _ _ _ => hq
theorem s_terminated {p : Parser α} {p' : Parser β} {q : Parser γ} {q' : Parser δ} (hp : S R p p') (hq : S Q q q') :
    S R (terminated p q) (terminated p' q') := s_bind hp fun _ _ h => s_bind hq fun _ _ _ => s_pure h
theorem s_delimited {ε ζ : Type} {P : ε → ζ → Prop} {p : Parser α} {p' : Parser β} {q : Parser γ} {q' : Parser δ}
    {r : Parser ε} {r' : Parser ζ} (hp : S R p p') (hq : S Q q q') (hr : S P r r') :
    S Q (delimited p q r) (delimited p' q' r') :=
  s_bind hp fun _ _ _ => s_bind hq fun _ _ h => s_bind hr fun _ _ _ => s_pure h

/-- The lists have the same length and related elements. -/
inductive LRel (R : α → β → Prop) : List α → List β → Prop
  | nil : LRel R [] []
  | cons {v v' vs vs'} : R v v' → LRel R vs vs' → LRel R (v :: vs) (v' :: vs')

theorem length_iff {r r' s s' : Str} (h1 : Alike r r') (h2 : Alike s s') : r'.length = s'.length ↔ r.length = s.length := by
  rw [h1.length, h2.length]

theorem s_many0Loop {p : Parser α} {p' : Parser β} (hp : S R p p') (n : Nat) (s s' : Str) (hs : Alike s s') :
    Sm (LRel R) s s' (many0Loop p n s) (many0Loop p' n s') := by
  induction n generalizing s s' with
  | zero => exact .div
  | succ n ih =>
    simp only [many0Loop]
    have done : Sm (LRel R) s s' (.ok [] s) (.ok [] s') := sm_same .nil hs
    have h := hp s s' hs
    revert h
    generalize p s = x, p' s' = y
    intro h
    cases h with
    | @ok v v' r r' h a k1 k2 =>
      dsimp only
      by_cases e : r = s
      · have e' : r' = s' := k2.eq_of_length ((length_iff a hs).2 (by rw [e]))
        rw [if_pos e, if_pos e']; exact done
      · have e' : r' ≠ s' := fun e' => e (k1.eq_of_length ((length_iff a hs).1 (by rw [e'])))
        rw [if_neg e, if_neg e']
        refine (sm_andThen (Q := LRel R) (ih r r' a) fun vs vs' q q' hh b => ?_).mono id k1 k2
        exact sm_same (.cons h hh) b
    | err => exact done
    | panic => exact .panic
    | div => exact .div

theorem s_many0 {p : Parser α} {p' : Parser β} (hp : S R p p') : S (LRel R) (many0 p) (many0 p') := fun s s' hs => by
  unfold many0
  rw [hs.length]
  exact s_many0Loop hp _ s s' hs
theorem s_many1 {p : Parser α} {p' : Parser β} (hp : S R p p') : S (LRel R) (many1 p) (many1 p') :=
  s_bind hp fun _ _ h => s_bind (s_many0 hp) fun _ _ hh => s_pure (.cons h hh)

theorem s_sepLoop {sep : Parser α} {sep' : Parser β} {p : Parser γ} {p' : Parser δ} (hsep : S R sep sep')
    (hp : S Q p p') (n : Nat) (s s' : Str) (hs : Alike s s') :
    Sm (LRel Q) s s' (sepLoop sep p n s) (sepLoop sep' p' n s') := by
  induction n generalizing s s' with
  | zero => exact .div
  | succ n ih =>
    simp only [sepLoop]
    have done : Sm (LRel Q) s s' (.ok [] s) (.ok [] s') := sm_same .nil hs
    have h := hsep s s' hs
    revert h
    generalize sep s = x, sep' s' = y
    intro h
    cases h with
    | @ok v v' r r' h a k1 k2 =>
      simp only [length_iff a hs]
      split
      · exact done
      · have h := hp r r' a
        revert h
        generalize p r = x, p' r' = y
        intro h
        cases h with
        | @ok v v' q q' h b l1 l2 =>
          simp only [length_iff b a]
          split
          · exact done
          · refine (sm_andThen (Q := LRel Q) (ih q q' b) fun vs vs' q q' hh b => ?_).mono id (l1.trans k1) (l2.trans k2)
            exact sm_same (.cons h hh) b
        | err => exact done
        | panic => exact .panic
        | div => exact .div
    | err => exact done
    | panic => exact .panic
    | div => exact .div

theorem s_sepNonemptyList {sep : Parser α} {sep' : Parser β} {p : Parser γ} {p' : Parser δ}
    (hsep : S R sep sep') (hp : S Q p p') : S (LRel Q) (sepNonemptyList sep p) (sepNonemptyList sep' p') := fun s s' hs => by
  unfold sepNonemptyList
  have h := hp s s' hs
  revert h
  generalize p s = x, p' s' = y
  intro h
  cases h with
  | @ok v v' r r' h a k1 k2 =>
    simp only [andThen_ok, length_iff a hs]
    split
    · exact .err
    · rw [a.length]
      refine (sm_andThen (Q := LRel Q) (s_sepLoop hsep hp _ r r' a) fun vs vs' q q' hh b => ?_).mono id k1 k2
      exact sm_same (.cons h hh) b
  | err => exact .err
  | panic => exact .panic
  | div => exact .div

theorem s_sepList {sep : Parser α} {sep' : Parser β} {p : Parser γ} {p' : Parser δ}
    (hsep : S R sep sep') (hp : S Q p p') : S (LRel Q) (sepList sep p) (sepList sep' p') := fun s s' hs => by
  unfold sepList
  have h := hp s s' hs
  revert h
  generalize p s = x, p' s' = y
  intro h
  cases h with
  | @ok v v' r r' h a k1 k2 =>
    simp only [length_iff a hs]
    split
    · exact .err
    · rw [a.length]
      refine (sm_andThen (Q := LRel Q) (s_sepLoop hsep hp _ r r' a) fun vs vs' q q' hh b => ?_).mono id k1 k2
      exact sm_same (.cons h hh) b
  | err => exact sm_same .nil hs
  | panic => exact .panic
  | div => exact .div

theorem s_index {v : List α} {v' : List β} (h : LRel R v v') (i : Nat) : S R (index v i) (index v' i) := fun s s' hs => by
  unfold index
  induction h generalizing i with
  | nil => exact .panic
  | cons h _ ih =>
    cases i with
    | zero => exact sm_same h hs
    | succ i => exact ih i

theorem LRel.refl (v : List α) : LRel Eq v v := by
  induction v with
  | nil => exact .nil
  | cons _ _ ih => exact .cons rfl ih
theorem LRel.eq {v v' : List α} (h : LRel Eq v v') : v = v' := by
  induction h with
  | nil => rfl
  | cons h _ ih => rw [h, ih]
theorem ORel.eq {v v' : Option α} (h : ORel Eq v v') : v = v' := by
  cases h with
  | none => rfl
  | some h => rw [h]
theorem LRel.length {v : List α} {v' : List β} (h : LRel R v v') : v'.length = v.length := by
  induction h with
  | nil => rfl
  | cons _ _ ih => rw [List.length_cons, List.length_cons, ih]
theorem LRel.drop {v : List α} {v' : List β} (h : LRel R v v') (n : Nat) : LRel R (v.drop n) (v'.drop n) := by
  induction h generalizing n with
  | nil => rw [List.drop_nil, List.drop_nil]; exact .nil
  | cons h t ih =>
    cases n with
    | zero => exact .cons h t
    | succ n => exact ih n

/-- The parser behaves the same on both texts. -/
abbrev E (p : Parser α) : Prop := S Eq p p

theorem e_index (v : List α) (i : Nat) : E (index v i) := s_index (LRel.refl v) i
theorem e_pure (v : α) : E (pure v) := s_pure rfl
theorem e_bind {p : Parser α} {q : α → Parser γ} {q' : α → Parser δ} (hp : E p)
    (hq : ∀ v, S Q (q v) (q' v)) : S Q (p >>= q) (p >>= q') :=
  s_bind hp fun v _ h => by cases h; exact hq v
theorem e_pmap {p : Parser α} {f : α → γ} {g : α → δ} (hp : E p)
    (h : ∀ v, Q (f v) (g v)) : S Q (pmap p f) (pmap p g) := e_bind hp fun v => s_pure (h v)
theorem e_opt {p : Parser α} (h : E p) : E (opt p) := s_mono (s_opt h) fun h => h.eq
theorem e_many0 {p : Parser α} (h : E p) : E (many0 p) := s_mono (s_many0 h) fun h => h.eq
theorem e_many1 {p : Parser α} (h : E p) : E (many1 p) := s_mono (s_many1 h) fun h => h.eq
theorem e_sepList {sep : Parser α} {p : Parser γ} (hs : E sep) (h : E p) : E (sepList sep p) :=
  s_mono (s_sepList hs h) fun h => h.eq
theorem e_sepNonemptyList {sep : Parser α} {p : Parser γ} (hs : E sep) (h : E p) : E (sepNonemptyList sep p) :=
  s_mono (s_sepNonemptyList hs h) fun h => h.eq
theorem e_mapRes {p : Parser α} (f : α → Option γ) (hp : E p) : E (mapRes p f) :=
  s_mapRes hp fun v v' h => by
    cases h
    cases f v
    · exact .none
    · exact .some rfl

/-! ### Tokens -/

theorem e_takeWhile0 {f : Char → Bool} (hf : Known f) : E (takeWhile0 f) := fun s s' hs => by
  unfold takeWhile0
  rw [takeWhile_known hf hs]
  exact .ok rfl (dropWhile (fair_of hf) hs) (List.dropWhile_suffix _) (List.dropWhile_suffix _)
theorem e_takeWhile1 {f : Char → Bool} (hf : Known f) : E (takeWhile1 f) := fun s s' hs => by
  unfold takeWhile1
  rw [takeWhile_known hf hs]
  split
  · exact .err
  · exact .ok rfl (dropWhile (fair_of hf) hs) (List.dropWhile_suffix _) (List.dropWhile_suffix _)

theorem e_char {c : Char} (hc : mentioned c = true) : E (char c) := fun s s' hs => by
  cases s with
  | nil => rw [hs.nil]; exact .err
  | cons d s =>
    obtain ⟨d', u, rfl, h1, h2⟩ := hs.inv
    simp only [char]
    by_cases e : d = c
    · have : d' = c := by rw [← e]; exact eq_of h1 (by rw [e]; exact hc)
      rw [if_pos e, if_pos this, e, this]
      exact .ok rfl h2 (List.suffix_cons _ _) (List.suffix_cons _ _)
    · have : d' ≠ c := fun e' => e (by rw [← e']; exact eq_of h1.symm (by rw [e']; exact hc))
      rw [if_neg e, if_neg this]; exact .err

theorem stripPrefix_alike {k : Str} (hk : ∀ c ∈ k, mentioned c = true) {s s' : Str} (hs : Alike s s') :
    (∃ r r', stripPrefix k s = some r ∧ stripPrefix k s' = some r' ∧ Alike r r' ∧ s = k ++ r ∧ s' = k ++ r') ∨
    (stripPrefix k s = none ∧ stripPrefix k s' = none) := by
  induction k generalizing s s' with
  | nil => exact .inl ⟨s, s', rfl, rfl, hs, rfl, rfl⟩
  | cons c k ih =>
    cases s with
    | nil => rw [hs.nil]; exact .inr ⟨rfl, rfl⟩
    | cons d s =>
      obtain ⟨d', u, rfl, h1, h2⟩ := hs.inv
      have hc := hk c (by simp)
      simp only [stripPrefix]
      by_cases e : d = c
      · have : d' = c := by rw [← e]; exact eq_of h1 (by rw [e]; exact hc)
        rw [if_pos e, if_pos this, e, this]
        rcases ih (fun c hc => hk c (List.mem_cons_of_mem _ hc)) h2 with ⟨r, r', a, b, h, e1, e2⟩ | h
        · exact .inl ⟨r, r', a, b, h, by rw [e1]; rfl, by rw [e2]; rfl⟩
        · exact .inr h
      · have : d' ≠ c := fun e' => e (by rw [← e']; exact eq_of h1.symm (by rw [e']; exact hc))
        rw [if_neg e, if_neg this]; exact .inr ⟨rfl, rfl⟩

theorem e_tag {k : Str} (hk : ∀ c ∈ k, mentioned c = true) : E (tag k) := fun s s' hs => by
  unfold tag
  rcases stripPrefix_alike hk hs with ⟨r, r', h1, h2, h, rfl, rfl⟩ | ⟨h1, h2⟩
  · rw [h1, h2]; exact .ok rfl h (List.suffix_append _ _) (List.suffix_append _ _)
  · rw [h1, h2]; exact .err

theorem e_reHeadTail {h t : Char → Bool} (hh : Known h) (ht : Known t) : E (reMatches (reHeadTail h t)) := fun s s' hs => by
  cases s with
  | nil => rw [hs.nil]; exact .err
  | cons c s =>
    obtain ⟨d, u, rfl, h1, h2⟩ := hs.inv
    simp only [reMatches, reHeadTail, ← (fair_of hh).eq h1]
    by_cases e : h c = true
    · rw [if_pos e, if_pos e, eq_of h1 (hh c e), takeWhile_known ht h2]
      exact .ok rfl (dropWhile (fair_of ht) h2) ((List.dropWhile_suffix _).trans (List.suffix_cons _ _))
        ((List.dropWhile_suffix _).trans (List.suffix_cons _ _))
    · rw [if_neg e, if_neg e]; exact .err

theorem s_reStar {f : Char → Bool} (hf : Fair f) : S (LRel Alike) (reMatches (reStar f)) (reMatches (reStar f)) :=
  fun s s' hs => by
  simp only [reMatches, reStar]
  exact .ok (.cons (takeWhile hf hs) .nil) (dropWhile hf hs) (List.dropWhile_suffix _) (List.dropWhile_suffix _)

theorem e_loName : E loName :=
  s_alt (e_tag (by decide)) (e_bind (e_reHeadTail known_lower known_ident) fun _ => e_bind (e_index _ _) fun _ => by
    split
    · exact s_fail
    · exact e_pure _)
theorem e_upName : E upName := e_bind (e_reHeadTail known_upper known_ident) fun _ => e_index _ _
theorem e_operator : E operator :=
  e_bind (e_reHeadTail known_op known_op) fun _ => e_bind (e_index _ _) fun _ => by
    split
    · exact s_fail
    · exact e_pure _
theorem e_spaces : E spaces := e_takeWhile1 (known_eq rfl)
theorem e_digit : E digit := e_takeWhile1 known_digit
theorem e_multispace0 : E multispace0 := e_takeWhile0 known_multispace
theorem e_multispace : E multispace := e_takeWhile1 known_multispace
theorem e_sn : E spacesAndNewlines := e_takeWhile1 (known_or (known_eq rfl) (known_eq rfl))
theorem e_spaces0 : E spaces0 := e_pmap (e_opt e_spaces) fun _ => rfl
theorem fair_line : Fair (fun c => c != '\n') := fun c hc => by
  have : c ≠ '\n' := by rintro rfl; exact absurd hc (by decide)
  simp [this]
theorem s_singleLineComment : S Alike singleLineComment singleLineComment :=
  s_bind (s_preceded (e_tag (by decide)) (s_reStar fair_line)) fun _ _ h => s_index h 0

/-! ### Layout -/

theorem e_newLineItem : E newLineItem :=
  s_preceded (e_char rfl) (s_alt (e_pmap e_spaces0 fun _ => rfl) (s_pmap s_singleLineComment fun _ _ _ => rfl))
theorem e_gapItem (ind : Nat) : E (gapItem ind) :=
  s_alt (e_pmap e_spaces fun _ => rfl) (s_alt (s_pmap s_singleLineComment fun _ _ _ => rfl) (e_many1 e_newLineItem))
theorem e_gap (ind : Nat) (ir : IR) : E (gap ind ir) := e_mapRes _ (e_many1 (e_gapItem ind))
theorem e_optGap (ind : Nat) (ir : IR) : E (optGap ind ir) := e_pmap (e_opt (e_gap ind ir)) fun _ => rfl
theorem e_newLineAndSameIndent (ind : Nat) : E (newLineAndSameIndent ind) :=
  e_mapRes _ (s_preceded (e_char rfl) (e_pmap e_spaces0 fun _ => rfl))

/-! ### Types -/

theorem e_commaSep (ind : Nat) : E (commaSep ind) :=
  s_delimited (e_opt (e_gap ind _)) (e_char rfl) (e_opt (e_gap ind _))

/-- Something in brackets with optional white space. -/
theorem s_brackets (ind : Nat) {p : Parser α} {p' : Parser β} {a b : Char} (ha : mentioned a = true) (hb : mentioned b = true)
    (hp : S R p p') :
    S R (delimited (preceded (char a) (opt (gap ind .GTE))) p (terminated (opt (gap ind .GTE)) (char b)))
      (delimited (preceded (char a) (opt (gap ind .GTE))) p' (terminated (opt (gap ind .GTE)) (char b))) :=
  s_delimited (s_preceded (e_char ha) (e_opt (e_gap ind _))) hp (s_terminated (e_opt (e_gap ind _)) (e_char hb))

theorem e_dotted : E (sepNonemptyList (char '.') upName) := e_sepNonemptyList (e_char rfl) e_upName
theorem e_typeVariable : E typeVariable :=
  e_bind (e_reHeadTail known_lower known_tyVar) fun _ => e_bind (e_index _ _) fun _ => e_pure _

/-- The recursive calls agree. -/
structure TyOk (rc : TyRec) : Prop where
  ty : ∀ ind, E (rc.type_ ind)
  ann : ∀ ind, E (rc.typeAnnotation ind)

section
variable {rc : TyRec} (h : TyOk rc) (ind : Nat)
include h

theorem e_typeTuple : E (typeTuple rc ind) :=
  e_pmap (s_brackets ind rfl rfl (e_sepList (e_commaSep ind) (h.ty ind))) fun _ => rfl
theorem e_typeRecordPair : E (typeRecordPair rc ind) :=
  e_bind e_loName fun _ => e_bind (e_opt (e_gap ind _)) fun _ => e_bind (e_char rfl) fun _ =>
    e_bind (e_opt (e_gap ind _)) fun _ => e_bind (h.ann ind) fun _ => e_pure _
theorem e_typeRecordPairs : E (typeRecordPairs rc ind) := e_sepList (e_commaSep ind) (e_typeRecordPair h ind)
theorem e_typeRecord : E (typeRecord rc ind) :=
  s_brackets ind rfl rfl (e_pmap (e_typeRecordPairs h ind) fun _ => rfl)
theorem e_typeParens : E (typeParens rc ind) := s_brackets ind rfl rfl (h.ann ind)
theorem e_typeRecordConstructor : E (typeRecordConstructor rc ind) :=
  s_delimited (e_char rfl) (e_bind (e_gap ind _) fun _ => e_bind e_typeVariable fun _ => e_bind (e_gap ind _) fun _ =>
    e_bind (e_char rfl) fun _ => e_bind (e_gap ind _) fun _ => e_bind (e_typeRecordPairs h ind) fun _ =>
    e_bind (e_gap ind _) fun _ => e_pure _) (e_char rfl)
theorem e_typeParameter : E (typeParameter rc ind) :=
  s_alt e_typeVariable (s_alt (e_pmap e_dotted fun _ => rfl) (s_alt (e_typeRecordConstructor h ind)
    (s_alt (e_typeRecord h ind) (s_alt (e_typeTuple h ind) (e_typeParens h ind)))))
theorem e_typeConstructorF : E (typeConstructorF rc ind) :=
  e_bind e_dotted fun _ => e_bind (e_many0 (e_bind (e_gap ind _) fun j => e_typeParameter h j))
    fun _ => e_pure _
theorem e_typeF : E (typeF rc ind) :=
  s_alt (e_typeConstructorF h ind) (s_alt e_typeVariable (s_alt (e_typeRecordConstructor h ind)
    (s_alt (e_typeRecord h ind) (s_alt (e_typeTuple h ind) (e_typeParens h ind)))))
theorem e_typeAnnotationF : E (typeAnnotationF rc ind) :=
  e_bind (e_sepNonemptyList (s_delimited e_sn (e_tag (by decide)) e_sn) (e_typeF h ind)) fun v => by
    split
    · exact s_fail
    · split
      · exact e_index _ _
      · split
        · exact e_pure _
        · exact s_fail
end

theorem tyOk_tyN (n : Nat) : TyOk (tyN n) := by
  induction n with
  | zero => exact ⟨fun _ _ _ _ => .div, fun _ _ _ _ => .div⟩
  | succ n ih => exact ⟨fun ind => e_typeF ih ind, fun ind => e_typeAnnotationF ih ind⟩

theorem tyOk_tyRec : TyOk tyRec where
  ty ind s s' hs := by
    have h := (tyOk_tyN (s.length + 1)).ty ind s s' hs
    rw [tyRec]
    dsimp only
    rwa [← hs.length]
  ann ind s s' hs := by
    have h := (tyOk_tyN (s.length + 1)).ann ind s s' hs
    rw [tyRec]
    dsimp only
    rwa [← hs.length]

/-! ### Literals -/

/-- The values are the same up to the characters of literals. -/
abbrev X : Expr → Expr → Prop := Ker exprBlank

theorem x_refl (e : Expr) : X e e := rfl

theorem e_variableP : E variableP :=
  s_alt (e_pmap e_loName fun _ => rfl) (s_alt (e_pmap e_dotted fun _ => rfl)
    (e_pmap (s_delimited (e_char rfl) (s_alt e_operator (e_takeWhile1 (known_eq rfl))) (e_char rfl)) fun _ => rfl))
theorem e_dotName : E dotName := e_bind (e_char rfl) fun _ => e_loName
theorem e_access : E access := e_bind e_variableP fun _ => e_bind (e_many1 e_dotName) fun _ => e_pure _
theorem e_accessFunction : E accessFunction := e_bind (e_char rfl) fun _ => e_bind e_loName fun _ => e_pure _

theorem stringBody_alike {s s' : Str} (hs : Alike s s') : Alike (stringBody s).1 (stringBody s').1 ∧
    Alike (stringBody s).2 (stringBody s').2 ∧ (stringBody s).2 <:+ s := by
  have ne : ∀ {c d x : Char}, mentioned x = true → blank c = blank d → (d = x ↔ c = x) := by
    intro c d x hx h
    constructor
    · rintro rfl; exact eq_of h.symm hx
    · rintro rfl; exact eq_of h hx
  revert s'
  induction s using stringBody.induct <;> intro s' hs
  case case1 => rw [hs.nil]; exact ⟨rfl, rfl, List.suffix_refl _⟩
  case case2 c d s h ih =>
    obtain ⟨c', u, rfl, h1, h2⟩ := hs.inv
    obtain ⟨d', u, rfl, h3, h4⟩ := h2.inv
    have h' : c' = '\\' ∧ (d' = '\\' ∨ d' = '"') := by
      rw [ne (by decide) h1, ne (by decide) h3, ne (by decide) h3]; exact h
    simp only [stringBody, h, h', and_self, if_true]
    obtain ⟨i1, i2, i3⟩ := ih h4
    refine ⟨?_, i2, i3.trans ⟨['\\', d], rfl⟩⟩
    exact alike_cons rfl (alike_cons h3 i1)
  case case3 c d s h1 h2 ih =>
    obtain ⟨c', u, rfl, k1, k2⟩ := hs.inv
    obtain ⟨d', u, rfl, k3, k4⟩ := k2.inv
    have h1' : ¬ (c' = '\\' ∧ (d' = '\\' ∨ d' = '"')) := by
      rw [ne (by decide) k1, ne (by decide) k3, ne (by decide) k3]; exact h1
    have h2' : c' ≠ '"' ∧ c' ≠ '\n' := by
      rw [ne_eq, ne_eq, ne (by decide) k1, ne (by decide) k1]; exact h2
    simp only [stringBody, h1, h2, h1', if_false, h2', ne_eq, not_false_eq_true, and_self, if_true]
    obtain ⟨i1, i2, i3⟩ := ih k2
    exact ⟨alike_cons k1 i1, i2, i3.trans ⟨[c], rfl⟩⟩
  case case4 c d s h1 h2 =>
    obtain ⟨c', u, rfl, k1, k2⟩ := hs.inv
    obtain ⟨d', u, rfl, k3, k4⟩ := k2.inv
    have h1' : ¬ (c' = '\\' ∧ (d' = '\\' ∨ d' = '"')) := by
      rw [ne (by decide) k1, ne (by decide) k3, ne (by decide) k3]; exact h1
    have h2' : ¬ (c' ≠ '"' ∧ c' ≠ '\n') := by
      rw [ne_eq, ne_eq, ne (by decide) k1, ne (by decide) k1]; exact h2
    simp only [stringBody, h1, h2, h1', if_false, h2']
    exact ⟨rfl, hs, List.suffix_refl _⟩
  case case5 c h =>
    obtain ⟨c', u, rfl, k1, k2⟩ := hs.inv
    rw [k2.nil]
    have h' : c' ≠ '"' ∧ c' ≠ '\n' := by
      rw [ne_eq, ne_eq, ne (by decide) k1, ne (by decide) k1]; exact h
    simp only [stringBody, h, h', ne_eq, not_false_eq_true, and_self, if_true]
    exact ⟨alike_cons k1 rfl, rfl, ⟨[c], rfl⟩⟩
  case case6 c h =>
    obtain ⟨c', u, rfl, k1, k2⟩ := hs.inv
    rw [k2.nil] at hs ⊢
    have h' : ¬ (c' ≠ '"' ∧ c' ≠ '\n') := by
      rw [ne_eq, ne_eq, ne (by decide) k1, ne (by decide) k1]; exact h
    simp only [stringBody, if_neg h, if_neg h']
    exact ⟨rfl, hs, List.suffix_refl _⟩

theorem s_singleString : S Alike singleString singleString :=
  s_bind (R := LRel Alike) (s_delimited (e_char rfl) (fun s s' hs => by
    obtain ⟨h1, h2, h3⟩ := stringBody_alike hs
    simp only [reMatches]
    exact .ok (.cons h1 .nil) h2 h3 (stringBody_alike (alike_refl s')).2.2) (e_char rfl)) fun _ _ h => s_index h 0

theorem s_multiString : S Alike multiString multiString :=
  s_bind (s_delimited (e_tag (by decide)) (s_reStar fun c hc => by
    have : c ≠ '"' := by rintro rfl; exact absurd hc (by decide)
    simp [this]) (e_tag (by decide))) fun _ _ h => s_index h 0

theorem s_string : S X string string :=
  s_pmap (s_alt s_multiString s_singleString) fun v v' h => by
    show exprBlank (.String v) = exprBlank (.String v')
    rw [exprBlank, exprBlank]; exact congrArg Expr.String h

theorem e_sign : E sign := e_pmap (e_opt (s_alt (e_char rfl) (e_char rfl))) fun _ => rfl
theorem e_float : E float :=
  e_bind e_sign fun _ => e_bind e_digit fun _ => e_bind (e_char rfl) fun _ => e_bind e_digit fun _ => e_pure _
theorem e_integer : E integer := e_bind e_sign fun _ => e_bind e_digit fun _ => e_pure _

theorem hexVal_alike {c d : Char} (h : blank c = blank d) : hexVal c = hexVal d := by
  cases hc : mentioned c with
  | true => rw [eq_of h hc]
  | false =>
    have none : ∀ {c}, mentioned c = false → hexVal c = none := by
      intro c hc
      have h1 : ¬ ('0' ≤ c ∧ c ≤ '9') := fun e => by
        rw [known_digit c (by simp [isDigit, e])] at hc; cases hc
      have low : ∀ {x : Char}, x ≤ 'z' → ¬ ('a' ≤ c ∧ c ≤ x) := fun hx e => by
        have : c ≤ 'z' := Char.le_trans e.2 hx
        rw [known_lower c (by simp [isLower, e.1, this])] at hc; cases hc
      have up : ∀ {x : Char}, x ≤ 'Z' → ¬ ('A' ≤ c ∧ c ≤ x) := fun hx e => by
        have : c ≤ 'Z' := Char.le_trans e.2 hx
        rw [known_upper c (by simp [isUpper, e.1, this])] at hc; cases hc
      rw [hexVal, if_neg h1, if_neg (low (by decide)), if_neg (up (by decide))]
    have hd : mentioned d = false := by rw [← mentioned_blank, ← h, mentioned_blank, hc]
    rw [none hc, none hd]

theorem e_fromHex : S Eq (pmap (take 2) fromHex) (pmap (take 2) fromHex) := fun s s' hs => by
  simp only [pmap_apply, take]
  rw [← hs.length]
  split
  · exact .err
  next hl =>
  cases s with
  | nil => exact absurd (by decide) hl
  | cons a s =>
    cases s with
    | nil => exact absurd (by simp) hl
    | cons b s =>
      obtain ⟨a', u, rfl, h1, h2⟩ := hs.inv
      obtain ⟨b', u, rfl, h3, h4⟩ := h2.inv
      refine .ok ?_ h4 ⟨[a, b], rfl⟩ ⟨[a', b'], rfl⟩
      show fromHex [a, b] = fromHex [a', b']
      have : (a' = '+') = (a = '+') := propext ⟨by rintro rfl; exact eq_of h1.symm (by decide),
        by rintro rfl; exact eq_of h1 (by decide)⟩
      simp only [fromHex, hexVal_alike h1, hexVal_alike h3, this]

theorem s_character : S X character character :=
  s_pmap (R := Ker blank) (s_delimited (e_char rfl) (s_alt
    (s_mono (e_mapRes _ (s_preceded (e_tag (by decide)) e_fromHex)) fun h => by rw [h]; rfl)
    (fun s s' hs => by
      cases s with
      | nil => rw [hs.nil]; exact .err
      | cons c s =>
        obtain ⟨d, u, rfl, h1, h2⟩ := hs.inv
        exact .ok h1 h2 (List.suffix_cons _ _) (List.suffix_cons _ _))) (e_char rfl)) fun v v' h => by
    show exprBlank (.Character v) = exprBlank (.Character v')
    rw [exprBlank, exprBlank]; exact congrArg Expr.Character h

/-! ### Expressions -/

/-- Fields and branches. -/
abbrev Fd : Name × Expr → Name × Expr → Prop := Ker fun x => (x.1, exprBlank x.2)
@[inherit_doc Fd]
abbrev Br : Expr × Expr → Expr × Expr → Prop := Ker fun x => (exprBlank x.1, exprBlank x.2)

theorem LRel.exprs {es es' : List Expr} (h : LRel X es es') : exprsBlank es = exprsBlank es' := by
  induction h with
  | nil => rfl
  | cons h _ ih => rw [exprsBlank, exprsBlank, ih, show exprBlank _ = exprBlank _ from h]
theorem LRel.fields {es es' : List (Name × Expr)} (h : LRel Fd es es') : fieldsBlank es = fieldsBlank es' := by
  induction h with
  | nil => rfl
  | @cons v v' _ _ h _ ih =>
    obtain ⟨n, e⟩ := v
    obtain ⟨n', e'⟩ := v'
    obtain ⟨h1, h2⟩ := Prod.mk.inj (show ((n, exprBlank e) : Name × Expr) = (n', exprBlank e') from h)
    rw [fieldsBlank, fieldsBlank, ih, h1, h2]
theorem LRel.branches {es es' : List (Expr × Expr)} (h : LRel Br es es') : branchesBlank es = branchesBlank es' := by
  induction h with
  | nil => rfl
  | @cons v v' _ _ h _ ih =>
    obtain ⟨n, e⟩ := v
    obtain ⟨n', e'⟩ := v'
    obtain ⟨h1, h2⟩ := Prod.mk.inj (show ((exprBlank n, exprBlank e) : Expr × Expr) = (exprBlank n', exprBlank e') from h)
    rw [branchesBlank, branchesBlank, ih, h1, h2]
theorem LRel.entries {es es' : List LetEntry} (h : LRel (Ker entryBlank) es es') : entriesBlank es = entriesBlank es' := by
  induction h with
  | nil => rfl
  | cons h _ ih => rw [entriesBlank, entriesBlank, ih, show entryBlank _ = entryBlank _ from h]

theorem s_simplifiedRecord : E simplifiedRecord :=
  e_pmap (s_delimited (e_char rfl) (e_sepList (e_char rfl) (e_bind e_multispace0 fun _ => e_bind e_loName fun _ =>
    e_bind e_multispace0 fun _ => e_pure _)) (e_char rfl)) fun _ => rfl

theorem s_of_e {p : Parser Expr} (h : E p) : S X p p := s_mono h fun h => by rw [h]; rfl

/-- The recursive calls agree. -/
def ExOk (rc : ExprRec) : Prop := ∀ ind, S X (rc ind) (rc ind)

/-- `f` keeps the relation. -/
theorem x1 {f : Expr → Expr} {a a' : Expr} (hf : ∀ a, exprBlank (f a) = f (exprBlank a)) (h : X a a') : X (f a) (f a') := by
  show exprBlank (f a) = exprBlank (f a')
  rw [hf, hf, show exprBlank a = exprBlank a' from h]

section
variable {rc : ExprRec} (h : ExOk rc) (ind : Nat)
include h

theorem s_tuple : S X (tuple rc ind) (tuple rc ind) :=
  s_pmap (s_delimited (e_char rfl) (s_sepList (e_char (c := ',') rfl) (s_delimited e_multispace0 (h ind) e_multispace0))
    (e_char rfl)) fun v v' h => by
    show exprBlank (.Tuple v) = exprBlank (.Tuple v')
    rw [exprBlank, exprBlank, h.exprs]

theorem s_list : S X (list rc ind) (list rc ind) :=
  s_pmap (s_brackets ind rfl rfl (s_opt (s_sepList (e_commaSep ind) (h ind)))) fun v v' h => by
    cases h with
    | none => rfl
    | @some v v' h =>
      show exprBlank (.List v) = exprBlank (.List v')
      rw [exprBlank, exprBlank, h.exprs]

theorem s_recordField : S Fd (recordField rc ind) (recordField rc ind) :=
  e_bind e_loName fun n => e_bind (s_delimited (e_opt (e_gap ind _)) (e_char rfl) (e_opt (e_gap ind _)))
    fun _ => s_bind (h ind) fun _ _ h => s_pure (congrArg (Prod.mk n) h)

theorem s_record : S X (record rc ind) (record rc ind) :=
  s_pmap (s_brackets ind rfl rfl (s_sepList (e_commaSep ind) (s_recordField h ind))) fun v v' h => by
    show exprBlank (.Record v) = exprBlank (.Record v')
    rw [exprBlank, exprBlank, h.fields]

theorem s_updateField : S Fd (updateField rc ind) (updateField rc ind) :=
  e_bind e_loName fun n => e_bind e_multispace0 fun _ => e_bind (e_char rfl) fun _ =>
    e_bind e_multispace0 fun _ => s_bind (h ind) fun _ _ h => s_pure (congrArg (Prod.mk n) h)

theorem s_recordUpdate : S X (recordUpdate rc ind) (recordUpdate rc ind) :=
  s_delimited (s_preceded (e_char rfl) (e_optGap ind _))
    (e_bind e_loName fun n => e_bind (e_optGap ind _) fun _ => e_bind (e_char rfl) fun _ => e_bind e_multispace0 fun _ =>
      s_bind (s_sepList (s_delimited (e_optGap ind _) (e_char (c := ',') rfl) (e_optGap ind _)) (s_updateField h ind))
        fun v v' h => s_pure (by
          show exprBlank (.RecordUpdate n v) = exprBlank (.RecordUpdate n v')
          rw [exprBlank, exprBlank, h.fields]))
    (s_terminated (e_gap ind _) (e_char rfl))

theorem s_parens : S X (parens rc ind) (parens rc ind) := s_delimited (e_char rfl) (h ind) (e_char rfl)

theorem s_termF : S X (termF rc ind) (termF rc ind) :=
  s_alt (s_of_e e_access) <| s_alt (s_of_e e_variableP) <| s_alt (s_of_e e_accessFunction) <| s_alt s_string <|
  s_alt (s_of_e e_float) <| s_alt (s_of_e e_integer) <| s_alt s_character <| s_alt (s_parens h ind) <|
  s_alt (s_list h ind) <| s_alt (s_tuple h ind) <| s_alt (s_recordUpdate h ind) <| s_alt (s_record h ind)
  (s_of_e s_simplifiedRecord)

theorem s_lambda : S X (lambda rc ind) (lambda rc ind) :=
  e_bind (e_char rfl) fun _ => s_bind (s_sepNonemptyList (R := Eq) (e_takeWhile1 fun c hc => by
    simp only [decide_eq_true_eq] at hc; rcases hc with rfl | rfl <;> rfl) (s_termF h ind)) fun v v' h1 =>
    e_bind (e_gap ind _) fun _ => e_bind (e_tag (by decide)) fun _ => e_bind (e_gap ind _) fun j =>
      s_bind (h j) fun b b' h2 => s_pure (by
        show exprBlank (.Lambda v b) = exprBlank (.Lambda v' b')
        rw [exprBlank, exprBlank, h1.exprs, show exprBlank b = exprBlank b' from h2])

omit h in
theorem foldl_app {es es' : List Expr} (h : LRel X es es') {a a' : Expr} (ha : X a a') :
    X (es.foldl (fun app entry => .Application app entry) a) (es'.foldl (fun app entry => .Application app entry) a') := by
  induction h generalizing a a' with
  | nil => exact ha
  | @cons b b' _ _ h _ ih =>
    refine ih ?_
    show exprBlank (.Application a b) = exprBlank (.Application a' b')
    rw [exprBlank, exprBlank, show exprBlank a = _ from ha, show exprBlank b = _ from h]

theorem s_applicationOrVar : S X (applicationOrVar rc ind) (applicationOrVar rc ind) :=
  s_bind (s_sepList (e_gap ind _) (s_termF h ind)) fun v v' e => by
    rw [show v'.isEmpty = v.isEmpty by cases e <;> rfl, e.length]
    split
    · exact s_fail
    · split
      · exact s_index e 0
      · exact s_bind (s_index e 0) fun a a' ha => s_bind (s_index e 1) fun b b' hb =>
          s_pure (foldl_app (e.drop 2) (by
            show exprBlank (.Application a b) = exprBlank (.Application a' b')
            rw [exprBlank, exprBlank, show exprBlank a = _ from ha, show exprBlank b = _ from hb]))

omit h in
theorem e_functionNameOrOp : E functionNameOrOp :=
  s_alt e_loName (s_delimited (e_char rfl) e_operator (e_char rfl))

omit h in
theorem e_functionSignature : E (functionSignature ind) :=
  e_bind e_functionNameOrOp fun _ => e_bind e_spaces fun _ => e_bind (e_char rfl) fun _ =>
    e_bind (e_gap ind _) fun j => e_bind (tyOk_tyRec.ann j) fun _ => e_pure _

theorem s_functionDefinitionF : S (Ker definitionBlank) (functionDefinitionF rc ind) (functionDefinitionF rc ind) :=
  e_bind e_functionNameOrOp fun n => s_bind (s_many0 (s_preceded e_spaces (s_termF h ind))) fun v v' h1 =>
    e_bind e_spaces fun _ => e_bind (e_char rfl) fun _ => e_bind (e_gap ind _) fun j =>
      s_bind (h j) fun b b' h2 => s_pure (by
        show definitionBlank (.mk n v b) = definitionBlank (.mk n v' b')
        rw [definitionBlank, definitionBlank, h1.exprs, show exprBlank b = exprBlank b' from h2])

theorem s_functionF : S (Ker functionBlank) (functionF rc ind) (functionF rc ind) :=
  e_bind (e_opt (s_terminated (e_functionSignature ind) (e_newLineAndSameIndent ind))) fun o =>
    s_bind (s_functionDefinitionF h ind) fun d d' h2 => s_pure (by
      show functionBlank (.mk o d) = functionBlank (.mk o d')
      rw [functionBlank, functionBlank, show definitionBlank d = _ from h2])

theorem s_letBindingTarget : S X (letBindingTarget rc ind) (letBindingTarget rc ind) :=
  s_alt (s_of_e e_variableP) (s_alt (s_list h ind) (s_alt (s_tuple h ind) (s_of_e s_simplifiedRecord)))

theorem s_letBinding : S (Ker entryBlank) (letBinding rc ind) (letBinding rc ind) :=
  s_bind (s_letBindingTarget h ind) fun a a' h1 => e_bind (e_gap ind _) fun _ => e_bind (e_char rfl)
    fun _ => e_bind (e_gap ind _) fun j => s_bind (h j) fun b b' h2 => s_pure (by
      show entryBlank (.LetBinding a b) = entryBlank (.LetBinding a' b')
      rw [entryBlank, entryBlank, show exprBlank a = _ from h1, show exprBlank b = _ from h2])

theorem s_letEntry : S (Ker entryBlank) (letEntry rc ind) (letEntry rc ind) :=
  s_alt (s_letBinding h ind) (s_pmap (s_functionF h ind) fun f f' h => by
    show entryBlank (.LetFunction f) = entryBlank (.LetFunction f')
    rw [entryBlank, entryBlank, show functionBlank f = _ from h])

theorem s_letExpression : S X (letExpression rc ind) (letExpression rc ind) :=
  e_bind (e_tag (by decide)) fun _ => e_bind (e_gap ind _) fun j =>
    s_bind (s_sepNonemptyList (e_gap j _) (s_letEntry h j)) fun v v' h1 => e_bind (e_gap ind _)
      fun _ => e_bind (e_tag (by decide)) fun _ => e_bind (e_gap ind _) fun _ =>
        s_bind (h ind) fun b b' h2 => s_pure (by
          show exprBlank (.Let v b) = exprBlank (.Let v' b')
          rw [exprBlank, exprBlank, h1.entries, show exprBlank b = _ from h2])

theorem s_caseBranch : S Br (caseBranch rc ind) (caseBranch rc ind) :=
  s_bind (h ind) fun _ _ h1 => e_bind (e_gap ind _) fun _ => e_bind (e_tag (by decide)) fun _ =>
    e_bind (e_gap ind _) fun j => s_bind (h j) fun _ _ h2 => s_pure (Prod.ext h1 h2)

theorem s_caseExpression : S X (caseExpression rc ind) (caseExpression rc ind) :=
  e_bind (e_tag (by decide)) fun _ => e_bind (e_gap ind _) fun _ => s_bind (h ind) fun a a' h1 =>
    e_bind (e_gap ind _) fun _ => e_bind (e_tag (by decide)) fun _ => e_bind (e_gap ind _) fun j =>
      s_bind (s_sepNonemptyList (e_gap j _) (s_caseBranch h j)) fun v v' h2 => s_pure (by
        show exprBlank (.Case a v) = exprBlank (.Case a' v')
        rw [exprBlank, exprBlank, h2.branches, show exprBlank a = _ from h1])

theorem s_ifExpression : S X (ifExpression rc ind) (ifExpression rc ind) :=
  e_bind (e_tag (by decide)) fun _ => e_bind (e_gap ind _) fun _ => s_bind (h ind) fun a a' h1 =>
    e_bind (e_gap ind _) fun _ => e_bind (e_tag (by decide)) fun _ => e_bind (e_gap ind _) fun j =>
      s_bind (h j) fun b b' h2 => e_bind (e_gap ind _) fun _ => e_bind (e_tag (by decide)) fun _ =>
        e_bind (e_gap ind _) fun k => s_bind (h k) fun c c' h3 => s_pure (by
          show exprBlank (.If a b c) = exprBlank (.If a' b' c')
          rw [exprBlank, exprBlank, show exprBlank a = _ from h1, show exprBlank b = _ from h2,
            show exprBlank c = _ from h3])

theorem s_binaryTail : S Br (binaryTail rc ind) (binaryTail rc ind) :=
  e_bind (e_gap ind _) fun _ => e_bind (e_pmap (s_alt (e_tag (by decide)) e_operator) fun _ => rfl)
    fun o => e_bind e_multispace fun _ => s_bind (h ind) fun _ _ h2 => s_pure (Prod.ext rfl h2)

theorem s_binary : S X (binary rc ind) (binary rc ind) :=
  s_bind (s_applicationOrVar h ind) fun a a' h1 => s_bind (s_opt (s_binaryTail h ind)) fun _ _ h2 => by
    cases h2 with
    | none => exact s_pure h1
    | @some v v' h =>
      obtain ⟨o, b⟩ := v
      obtain ⟨o', b'⟩ := v'
      obtain ⟨h2, h3⟩ := Prod.mk.inj (show ((exprBlank o, exprBlank b) : Expr × Expr) = (exprBlank o', exprBlank b') from h)
      refine s_pure ?_
      show exprBlank (.BinOp o a b) = exprBlank (.BinOp o' a' b')
      rw [exprBlank, exprBlank, h2, h3, show exprBlank a = _ from h1]

theorem s_expressionF : S X (expressionF rc ind) (expressionF rc ind) :=
  s_alt (s_binary h ind) <| s_alt (s_letExpression h ind) <| s_alt (s_caseExpression h ind) <|
  s_alt (s_ifExpression h ind) (s_lambda h ind)
end

theorem exOk_exprN (n : Nat) : ExOk (exprN n) := by
  induction n with
  | zero => exact fun _ _ _ _ => .div
  | succ n ih => exact fun ind => s_expressionF ih ind

theorem exOk_expression : ExOk expression := by
  intro ind s s' hs
  have h := exOk_exprN (s.length + 1) ind s s' hs
  unfold expression
  rwa [← hs.length]

/-! ### Statements -/

/-- The values are the same up to the characters of literals and comments. -/
abbrev T : Statement → Statement → Prop := Ker statementBlank

theorem t_of_e {p : Parser Statement} (h : E p) : S T p p := s_mono h fun h => by rw [h]; rfl

theorem find_alike {k : Str} (hk : ∀ c ∈ k, mentioned c = true) {s s' : Str} (hs : Alike s s') :
    (findSubstring k s = none ∧ findSubstring k s' = none) ∨
    ∃ a b a' b', findSubstring k s = some (a, b) ∧ findSubstring k s' = some (a', b') ∧ Alike a a' ∧ Alike b b' ∧
      s = a ++ k ++ b ∧ s' = a' ++ k ++ b' := by
  induction s generalizing s' with
  | nil =>
    rw [hs.nil]
    unfold findSubstring
    cases e : stripPrefix k [] with
    | none => exact .inl ⟨rfl, rfl⟩
    | some r =>
      rcases stripPrefix_alike hk (alike_refl []) with ⟨r', -, h1, -, -, h3, -⟩ | ⟨h1, -⟩
      · rw [e] at h1; cases h1; exact .inr ⟨[], r, [], r, rfl, rfl, rfl, rfl, h3, h3⟩
      · rw [e] at h1; cases h1
  | cons c s ih =>
    obtain ⟨d, u, rfl, h1, h2⟩ := hs.inv
    unfold findSubstring
    rcases stripPrefix_alike hk hs with ⟨r, r', e, e', h, h3, h4⟩ | ⟨e, e'⟩
    · rw [e, e']; exact .inr ⟨[], r, [], r', rfl, rfl, rfl, h, h3, h4⟩
    · rw [e, e']
      rcases ih h2 with ⟨e, e'⟩ | ⟨a, b, a', b', e, e', ha, hb, h3, h4⟩
      · rw [e, e']; exact .inl ⟨rfl, rfl⟩
      · rw [e, e']
        exact .inr ⟨c :: a, b, d :: a', b', rfl, rfl, alike_cons h1 ha, hb, by rw [h3]; rfl, by rw [h4]; rfl⟩

theorem s_until {k : Str} (hk : ∀ c ∈ k, mentioned c = true) : S Alike (takeUntilAndConsume k) (takeUntilAndConsume k) :=
  fun s s' hs => by
  unfold takeUntilAndConsume
  rcases find_alike hk hs with ⟨h1, h2⟩ | ⟨a, b, a', b', h1, h2, h3, h4, h5, h6⟩
  · rw [h1, h2]; exact .err
  · rw [h1, h2]; exact .ok h3 h4 ⟨_, h5.symm⟩ ⟨_, h6.symm⟩

theorem t_comment {v v' : Str} (h : Alike v v') : T (.Comment v) (.Comment v') := congrArg Statement.Comment h

theorem s_comment : S T comment comment :=
  s_alt (s_bind (s_preceded (e_tag (by decide)) (s_reStar fair_line)) fun _ _ h =>
      s_bind (s_index h 0) fun _ _ h => s_pure (t_comment h))
    (s_pmap (s_preceded (e_tag (by decide)) (s_until (by decide))) fun _ _ h => t_comment h)

theorem e_allExport : E allExport := e_pmap (e_tag (by decide)) fun _ => rfl
theorem e_functionExport : E functionExport :=
  e_pmap (s_alt (e_pmap e_loName fun _ => rfl) (s_delimited (e_char rfl) e_operator (e_char rfl))) fun _ => rfl
theorem e_constructorExports : E constructorExports :=
  e_opt (s_delimited (e_char rfl) (s_alt e_allExport
    (e_pmap (e_sepNonemptyList (e_tag (by decide)) (e_pmap e_upName fun _ => rfl)) fun _ => rfl)) (e_char rfl))
theorem e_typeExport : E typeExport := e_bind e_upName fun _ => e_bind e_constructorExports fun _ => e_pure _
theorem e_subsetExport : E subsetExport :=
  e_pmap (e_sepNonemptyList (s_delimited (e_opt e_sn) (e_char rfl) (e_opt e_sn)) (s_alt e_functionExport e_typeExport))
    fun _ => rfl
theorem e_exports : E exports := s_brackets 0 rfl rfl (s_alt e_allExport e_subsetExport)

theorem e_portModuleDeclaration : E portModuleDeclaration :=
  e_bind (e_tag (by decide)) fun _ => e_bind (e_gap 0 _) fun _ => e_bind (e_tag (by decide)) fun _ =>
  e_bind (e_gap 0 _) fun _ => e_bind e_dotted fun _ => e_bind (e_gap 0 _) fun _ =>
  e_bind (e_tag (by decide)) fun _ => e_bind (e_gap 0 _) fun _ => e_bind e_exports fun _ => e_pure _

theorem e_effectField : E effectField :=
  e_bind e_loName fun _ => e_bind (e_opt e_spaces) fun _ => e_bind (e_char rfl) fun _ =>
  e_bind (e_opt e_spaces) fun _ => e_bind e_upName fun _ => e_pure _

theorem e_effectModuleDeclaration : E effectModuleDeclaration :=
  e_bind (e_tag (by decide)) fun _ => e_bind (e_gap 0 _) fun _ => e_bind (e_tag (by decide)) fun _ =>
  e_bind (e_gap 0 _) fun _ => e_bind e_dotted fun _ => e_bind (e_gap 0 _) fun _ =>
  e_bind (e_tag (by decide)) fun _ => e_bind (e_gap 0 _) fun _ =>
  e_bind (s_delimited (e_char rfl) (e_sepList (e_tag (by decide)) e_effectField) (e_char rfl)) fun _ =>
  e_bind (e_gap 0 _) fun _ => e_bind (e_tag (by decide)) fun _ => e_bind (e_gap 0 _) fun _ =>
  e_bind e_exports fun _ => e_pure _

theorem e_moduleDeclaration : E moduleDeclaration :=
  e_bind (e_tag (by decide)) fun _ => e_bind (e_gap 0 _) fun _ => e_bind e_dotted fun _ =>
  e_bind (e_gap 0 _) fun _ => e_bind (e_tag (by decide)) fun _ => e_bind (e_gap 0 _) fun _ =>
  e_bind e_exports fun _ => e_pure _

theorem e_importStatement : E importStatement :=
  e_bind (e_tag (by decide)) fun _ => e_bind e_spaces fun _ => e_bind e_dotted fun _ =>
  e_bind (e_opt (s_preceded (s_delimited e_spaces (e_tag (by decide)) e_spaces) e_upName)) fun _ =>
  e_bind (e_opt (s_preceded (s_delimited e_spaces (e_tag (by decide)) e_spaces) e_exports)) fun _ => e_pure _

theorem e_typeAliasDeclaration : E typeAliasDeclaration :=
  e_bind (e_tag (by decide)) fun _ => e_bind e_spaces fun _ => e_bind (e_tag (by decide)) fun _ =>
    e_bind e_spaces fun _ => e_bind (tyOk_tyRec.ty 0) fun _ => e_bind e_spaces fun _ => e_bind (e_char rfl) fun _ =>
    e_bind (e_gap 1 _) fun _ => e_bind (tyOk_tyRec.ann 1) fun _ => e_pure _

theorem e_typeDeclaration : E (typeDeclaration 0) :=
  e_bind (e_tag (by decide)) fun _ => e_bind e_spaces fun _ => e_bind (tyOk_tyRec.ty 0) fun _ =>
    e_bind (e_gap 0 _) fun j => e_bind (e_char rfl) fun _ => e_bind (e_gap j _) fun _ =>
    e_bind (e_sepNonemptyList (s_delimited (e_gap j _) (e_char rfl) e_spaces) (e_typeConstructorF tyOk_tyRec j))
      fun _ => e_pure _

theorem e_portTypeDeclaration : E portTypeDeclaration :=
  e_bind (e_tag (by decide)) fun _ => e_bind e_spaces fun _ => e_bind e_loName fun _ =>
  e_bind e_spaces fun _ => e_bind (e_char rfl) fun _ => e_bind (e_gap 0 _) fun j =>
    e_bind (tyOk_tyRec.ann j) fun _ => e_pure _

theorem s_portDeclaration : S T portDeclaration portDeclaration :=
  e_bind (e_tag (by decide)) fun _ => e_bind e_spaces fun _ => e_bind e_loName fun n =>
  e_bind (e_many0 (s_preceded e_spaces e_loName)) fun as =>
  e_bind e_spaces fun _ => e_bind (e_char rfl) fun _ => e_bind (e_gap 0 _) fun j =>
    s_bind (exOk_expression j) fun e e' h => s_pure (by
      show statementBlank (.PortDeclaration n as e) = statementBlank (.PortDeclaration n as e')
      rw [statementBlank, statementBlank, show exprBlank e = _ from h])

theorem e_infixDeclaration : E infixDeclaration :=
  e_bind (s_alt (e_pmap (e_tag (by decide)) fun _ => rfl) (s_alt (e_pmap (e_tag (by decide)) fun _ => rfl)
    (e_pmap (e_tag (by decide)) fun _ => rfl))) fun _ => e_bind e_spaces fun _ =>
  e_bind (e_mapRes _ e_digit) fun _ => e_bind e_spaces fun _ =>
  e_bind (s_alt e_loName e_operator) fun _ => e_pure _

theorem s_function (ind : Nat) : S (Ker functionBlank) (function ind) (function ind) := s_functionF exOk_expression ind
theorem s_term (ind : Nat) : S X (term ind) (term ind) := s_termF exOk_expression ind

theorem s_statement : S T statement statement :=
  s_alt (t_of_e e_portModuleDeclaration) <| s_alt (t_of_e e_effectModuleDeclaration) <|
  s_alt (t_of_e e_moduleDeclaration) <| s_alt (t_of_e e_importStatement) <| s_alt (t_of_e e_typeAliasDeclaration) <|
  s_alt (t_of_e e_typeDeclaration) <| s_alt (t_of_e e_portTypeDeclaration) <| s_alt s_portDeclaration <|
  s_alt (s_pmap (s_function 0) fun f f' h => by
    show statementBlank (.Function f) = statementBlank (.Function f')
    rw [statementBlank, statementBlank, show functionBlank f = _ from h]) <|
  s_alt (t_of_e e_infixDeclaration) s_comment

theorem s_statements : S (LRel T) statements statements :=
  s_delimited e_multispace0 (s_sepNonemptyList e_multispace0 s_statement) e_multispace0

theorem s_file : S (LRel T) file file :=
  s_terminated s_statements (R := LRel T) (Q := Eq) fun s s' hs => by
    cases s with
    | nil => rw [hs.nil]; exact .ok rfl rfl (List.suffix_refl _) (List.suffix_refl _)
    | cons c s =>
      obtain ⟨d, u, rfl, -, -⟩ := hs.inv
      exact .err

theorem LRel.statements {a b : List Statement} (h : LRel T a b) : a.map statementBlank = b.map statementBlank := by
  induction h with
  | nil => rfl
  | cons h _ ih => rw [List.map_cons, List.map_cons, ih, show statementBlank _ = _ from h]

end Al
end ElmParser
