import Verif.Proofs.Steps
import Verif.Proofs.Lex
import Verif.Spec.Exprs

/-! A simulation: every parser treats `s` and `s ++ u` alike, where `u` is a
newline followed by white space.  The only parsers that can tell the difference
are the ones for white space, and what follows them fails at the end of the text
in both runs. -/
namespace ElmParser
open Spec
set_option linter.unusedSectionVars false

variable {α β γ δ : Type}

/-- White space and line comments up to the end of the text. -/
inductive Tail : Str → Prop
  | nil : Tail []
  | white {c : Char} {t : Str} : White c → Tail t → Tail (c :: t)
  | comment {x t : Str} : '\n' ∉ x → Next (· = '\n') t → Tail t → Tail ('-' :: '-' :: (x ++ t))

/-- A newline and white space. -/
def NlWhite (u : Str) : Prop := ∃ w, u = '\n' :: w ∧ ∀ c ∈ w, White c

theorem tail_whites {w : Str} (h : ∀ c ∈ w, White c) : Tail w := by
  induction w with
  | nil => exact .nil
  | cons c w ih => exact .white (h c (by simp)) (ih fun x hx => h x (by simp [hx]))

theorem NlWhite.whites {u : Str} (h : NlWhite u) : ∀ c ∈ u, White c := by
  obtain ⟨w, rfl, h⟩ := h
  intro c hc
  rcases List.mem_cons.1 hc with rfl | hc
  · exact .inr (.inr (.inr rfl))
  · exact h c hc

theorem Tail.append {u t : Str} (hu : NlWhite u) (h : Tail t) : Tail (t ++ u) := by
  induction h with
  | nil => exact tail_whites hu.whites
  | white hc _ ih => exact .white hc ih
  | @comment x t hx ht h' ih =>
    simp only [List.cons_append, List.append_assoc]
    refine .comment hx ?_ ih
    cases t with
    | nil =>
      obtain ⟨w, rfl, -⟩ := hu
      exact next_cons.2 rfl
    | cons c t => exact next_cons.2 ((next_cons (P := (· = '\n'))).1 ht)

theorem Tail.head {t : Str} (h : Tail t) : t = [] ∨ (∃ t', t = ' ' :: t' ∨ t = '\t' :: t' ∨
    t = '\r' :: t' ∨ t = '\n' :: t' ∨ t = '-' :: '-' :: t') := by
  cases h with
  | nil => exact .inl rfl
  | @white c t hc _ =>
    rcases hc with rfl | rfl | rfl | rfl
    · exact .inr ⟨t, .inl rfl⟩
    · exact .inr ⟨t, .inr (.inl rfl)⟩
    · exact .inr ⟨t, .inr (.inr (.inl rfl))⟩
    · exact .inr ⟨t, .inr (.inr (.inr (.inl rfl)))⟩
  | @comment x t _ _ _ => exact .inr ⟨x ++ t, .inr (.inr (.inr (.inr rfl)))⟩

theorem Tail.dropWhite {f : Char → Bool} (hf : f '-' = false) {t : Str} (h : Tail t) :
    Tail (t.dropWhile f) := by
  induction h with
  | nil => exact .nil
  | @white c t hc h' ih =>
    rw [List.dropWhile_cons]
    split
    · exact ih
    · exact .white hc h'
  | @comment x t hx ht h' ih =>
    rw [List.dropWhile_cons, hf]
    exact .comment hx ht h'

theorem Tail.prepend {a t : Str} (ha : ∀ c ∈ a, White c) (h : Tail t) : Tail (a ++ t) := by
  induction a with
  | nil => exact h
  | cons c a ih => exact .white (ha c (by simp)) (ih fun x hx => ha x (by simp [hx]))

/-- Not an answer: the budget of the model ran out (or a panic). -/
def Undef (x : Res α) : Prop := x = .div ∨ x = .panic

/-- The two runs agree; in the second one `u` is left in addition. -/
def Sim (u : Str) (x y : Res α) : Prop :=
  (∃ v r, x = .ok v r ∧ y = .ok v (r ++ u)) ∨ (x = .err ∧ y = .err) ∨ Undef x ∨ Undef y

/-- Not a success. -/
def Er (x : Res α) : Prop := ∀ v r, x ≠ .ok v r
/-- A success has only white space and comments left. -/
def Fin (x : Res α) : Prop := ∀ v r, x = .ok v r → Tail r

def S (u : Str) (p : Parser α) : Prop := ∀ s, Sim u (p s) (p (s ++ u))
def W (u : Str) (p : Parser α) : Prop :=
  ∀ s, Sim u (p s) (p (s ++ u)) ∨ (Fin (p s) ∧ Fin (p (s ++ u)))
def T (p : Parser α) : Prop := ∀ t, Tail t → Fin (p t)
def F (p : Parser α) : Prop := ∀ t, Tail t → Er (p t)
/-- A parser of white space. -/
structure G (u : Str) (p : Parser α) : Prop where
  sim : ∀ s, Tail s ∨ Sim u (p s) (p (s ++ u))
  tail : T p
  back : ∀ s v r, p s = .ok v r → Tail r → Tail s

theorem Er.fin {x : Res α} (h : Er x) : Fin x := fun v r e => absurd e (h v r)
theorem F.t {p : Parser α} (h : F p) : T p := fun t ht => (h t ht).fin
theorem S.w {u : Str} {p : Parser α} (h : S u p) : W u p := fun s => .inl (h s)

theorem er_err : Er (.err : Res α) := fun _ _ h => by cases h
theorem er_div : Er (.div : Res α) := fun _ _ h => by cases h
theorem er_panic : Er (.panic : Res α) := fun _ _ h => by cases h

theorem Er.sim {u : Str} {x y : Res α} (hx : Er x) (hy : Er y) : Sim u x y := by
  cases x with
  | ok v r => exact absurd rfl (hx v r)
  | err =>
    cases y with
    | ok v r => exact absurd rfl (hy v r)
    | err => exact .inr (.inl ⟨rfl, rfl⟩)
    | panic => exact .inr (.inr (.inr (.inr rfl)))
    | div => exact .inr (.inr (.inr (.inl rfl)))
  | panic => exact .inr (.inr (.inl (.inr rfl)))
  | div => exact .inr (.inr (.inl (.inl rfl)))

theorem sim_ok {u : Str} (v : α) (r : Str) : Sim u (.ok v r) (.ok v (r ++ u)) := .inl ⟨v, r, rfl, rfl⟩
theorem sim_err {u : Str} : Sim u (.err : Res α) .err := .inr (.inl ⟨rfl, rfl⟩)
theorem sim_undefL {u : Str} {x y : Res α} (h : Undef x) : Sim u x y := .inr (.inr (.inl h))
theorem sim_undefR {u : Str} {x y : Res α} (h : Undef y) : Sim u x y := .inr (.inr (.inr h))

theorem undef_andThen {x : Res α} {f : α → Str → Res β} (h : Undef x) : Undef (x.andThen f) := by
  rcases h with rfl | rfl
  · exact .inl rfl
  · exact .inr rfl

theorem er_andThen {x : Res α} {f : α → Str → Res β} (h : Er x) : Er (x.andThen f) := by
  cases x with
  | ok v r => exact absurd rfl (h v r)
  | err => exact er_err
  | panic => exact er_panic
  | div => exact er_div

theorem sim_andThen {u : Str} {x y : Res α} {f g : α → Str → Res β} (h : Sim u x y)
    (hf : ∀ v r, x = .ok v r → Sim u (f v r) (g v (r ++ u))) :
    Sim u (x.andThen f) (y.andThen g) := by
  rcases h with ⟨v, r, rfl, rfl⟩ | ⟨rfl, rfl⟩ | h | h
  · exact hf v r rfl
  · exact sim_err
  · exact sim_undefL (undef_andThen h)
  · exact sim_undefR (undef_andThen h)

theorem NlWhite.tail {u : Str} (hu : NlWhite u) : Tail u := tail_whites hu.whites

theorem T.app {u : Str} {p : Parser α} (hu : NlWhite u) (h : T p) {t : Str} (ht : Tail t) :
    Fin (p (t ++ u)) := h _ (ht.append hu)

theorem G.w {u : Str} {p : Parser α} (hu : NlWhite u) (h : G u p) : W u p := fun s => by
  rcases h.sim s with hs | hs
  · exact .inr ⟨h.tail s hs, h.tail _ (hs.append hu)⟩
  · exact .inl hs

/-! ### Closure -/

theorem s_pure {u : Str} (v : α) : S u (pure v) := fun s => sim_ok v s
theorem s_fail {u : Str} : S u (Parser.fail : Parser α) := fun _ => sim_err
theorem s_index {u : Str} (v : List α) (i : Nat) : S u (index v i) := fun s => by
  unfold index
  cases v[i]? with
  | none => exact sim_undefL (.inr rfl)
  | some x => exact sim_ok x s

theorem s_bind {u : Str} {p : Parser α} {q : α → Parser β} (hp : S u p) (hq : ∀ v, S u (q v)) :
    S u (p >>= q) := fun s => sim_andThen (hp s) fun v r _ => hq v r

theorem ws_bind {u : Str} {p : Parser α} {q : α → Parser β} (hp : W u p) (hq : ∀ v, S u (q v))
    (hf : ∀ v, F (q v)) : S u (p >>= q) := fun s => by
  rcases hp s with h | ⟨h, h'⟩
  · exact sim_andThen h fun v r _ => hq v r
  · refine Er.sim ?_ ?_
    · simp only [bind_apply]
      cases e : p s with
      | ok v r => exact hf v r (h v r e)
      | err => exact er_err
      | panic => exact er_panic
      | div => exact er_div
    · simp only [bind_apply]
      cases e : p (s ++ u) with
      | ok v r => exact hf v r (h' v r e)
      | err => exact er_err
      | panic => exact er_panic
      | div => exact er_div

theorem sw_bind {u : Str} {p : Parser α} {q : α → Parser β} (hp : S u p) (hq : ∀ v, W u (q v)) :
    W u (p >>= q) := fun s => by
  simp only [bind_apply]
  rcases hp s with ⟨v, r, h1, h2⟩ | ⟨h1, h2⟩ | h | h
  · rw [h1, h2]; exact hq v r
  · rw [h1, h2]; exact .inl sim_err
  · exact .inl (sim_undefL (undef_andThen h))
  · exact .inl (sim_undefR (undef_andThen h))

theorem fin_andThen {x : Res α} {f : α → Str → Res β} (h : Fin x)
    (hf : ∀ v r, Tail r → Fin (f v r)) : Fin (x.andThen f) := by
  cases x with
  | ok v r => exact hf v r (h v r rfl)
  | err => exact er_err.fin
  | panic => exact er_panic.fin
  | div => exact er_div.fin

theorem wt_bind {u : Str} {p : Parser α} {q : α → Parser β} (hp : W u p) (hq : ∀ v, W u (q v))
    (ht : ∀ v, T (q v)) : W u (p >>= q) := fun s => by
  rcases hp s with h | ⟨h, h'⟩
  · simp only [bind_apply]
    rcases h with ⟨v, r, h1, h2⟩ | ⟨h1, h2⟩ | h | h
    · rw [h1, h2]; exact hq v r
    · rw [h1, h2]; exact .inl sim_err
    · exact .inl (sim_undefL (undef_andThen h))
    · exact .inl (sim_undefR (undef_andThen h))
  · exact .inr ⟨fin_andThen h fun v r hr => ht v r hr, fin_andThen h' fun v r hr => ht v r hr⟩

theorem t_pure (v : α) : T (pure v : Parser α) := fun t ht w r h => by
  cases h; exact ht
theorem t_bind {p : Parser α} {q : α → Parser β} (hp : T p) (hq : ∀ v, T (q v)) : T (p >>= q) :=
  fun t ht => fin_andThen (hp t ht) fun v r hr => hq v r hr

theorem f_bind {p : Parser α} {q : α → Parser β} (hp : F p) : F (p >>= q) :=
  fun t ht => er_andThen (hp t ht)
theorem f_bindT {p : Parser α} {q : α → Parser β} (hp : T p) (hq : ∀ v, F (q v)) : F (p >>= q) :=
  fun t ht => by
    simp only [bind_apply]
    cases e : p t with
    | ok v r => exact hq v r (hp t ht v r e)
    | err => exact er_err
    | panic => exact er_panic
    | div => exact er_div

theorem s_alt {u : Str} {p q : Parser α} (hp : S u p) (hq : S u q) : S u (p </> q) := fun s => by
  simp only [alt_apply]
  rcases hp s with ⟨v, r, h1, h2⟩ | ⟨h1, h2⟩ | h | h
  · rw [h1, h2]; exact sim_ok v r
  · rw [h1, h2]; exact hq s
  · rcases h with h | h <;> rw [h]
    · exact sim_undefL (.inl rfl)
    · exact sim_undefL (.inr rfl)
  · rcases h with h | h <;> rw [h]
    · exact sim_undefR (.inl rfl)
    · exact sim_undefR (.inr rfl)

theorem f_alt {p q : Parser α} (hp : F p) (hq : F q) : F (p </> q) := fun t ht => by
  simp only [alt_apply]
  have := hp t ht
  cases e : p t with
  | ok v r => exact absurd e (this v r)
  | err => exact hq t ht
  | panic => exact er_panic
  | div => exact er_div

theorem s_pmap {u : Str} {p : Parser α} {f : α → β} (hp : S u p) : S u (pmap p f) :=
  s_bind hp fun _ => s_pure _
theorem w_pmap {u : Str} {p : Parser α} {f : α → β} (hp : W u p) : W u (pmap p f) :=
  wt_bind hp (fun _ => (s_pure _).w) fun _ => t_pure _
theorem t_pmap {p : Parser α} {f : α → β} (hp : T p) : T (pmap p f) := t_bind hp fun _ => t_pure _
theorem f_pmap {p : Parser α} {f : α → β} (hp : F p) : F (pmap p f) := f_bind hp
theorem s_opt {u : Str} {p : Parser α} (hp : S u p) : S u (opt p) :=
  s_alt (s_pmap hp) (s_pure _)
theorem s_mapRes {u : Str} {p : Parser α} {f : α → Option β} (hp : S u p) : S u (mapRes p f) :=
  s_bind hp fun v => by cases f v <;> first | exact s_pure _ | exact s_fail

theorem t_alt {p q : Parser α} (hp : T p) (hq : T q) : T (p </> q) := fun t ht => by
  simp only [alt_apply]
  have := hp t ht
  cases e : p t with
  | ok v r => rw [e] at this; exact this
  | err => exact hq t ht
  | panic => exact er_panic.fin
  | div => exact er_div.fin
theorem t_opt {p : Parser α} (hp : T p) : T (opt p) := t_alt (t_pmap hp) (t_pure _)
theorem t_fail : T (Parser.fail : Parser α) := fun _ _ => er_err.fin
theorem t_mapRes {p : Parser α} {f : α → Option β} (hp : T p) : T (mapRes p f) :=
  t_bind hp fun v => by cases f v <;> first | exact t_pure _ | exact t_fail

theorem t_many0Loop {p : Parser α} (hp : T p) (n : Nat) : T (many0Loop p n) := by
  induction n with
  | zero => exact fun _ _ => er_div.fin
  | succ n ih =>
    intro t ht
    simp only [many0Loop]
    have := hp t ht
    cases e : p t with
    | err => intro v r h; cases h; exact ht
    | panic => exact er_panic.fin
    | div => exact er_div.fin
    | ok v r =>
      simp only
      split
      · intro v r h; cases h; exact ht
      · exact fin_andThen (ih r (this v r e)) fun v r hr w r' h => by cases h; exact hr

theorem t_many0 {p : Parser α} (hp : T p) : T (many0 p) := fun t => t_many0Loop hp _ t
theorem t_many1 {p : Parser α} (hp : T p) : T (many1 p) :=
  t_bind hp fun _ => t_bind (t_many0 hp) fun _ => t_pure _

theorem s_many0Loop {u : Str} {p : Parser α} (hp : S u p) (n m : Nat) (s : Str) :
    Sim u (many0Loop p n s) (many0Loop p m (s ++ u)) := by
  induction n generalizing m s with
  | zero => exact sim_undefL (.inl rfl)
  | succ n ih =>
    cases m with
    | zero => exact sim_undefR (.inl rfl)
    | succ m =>
      simp only [many0Loop]
      rcases hp s with ⟨v, r, h1, h2⟩ | ⟨h1, h2⟩ | h | h
      · rw [h1, h2]
        simp only [List.append_left_inj]
        split
        · exact sim_ok _ _
        · exact sim_andThen (ih m r) fun vs r' _ => sim_ok _ _
      · rw [h1, h2]; exact sim_ok _ _
      · rcases h with h | h <;> rw [h]
        · exact sim_undefL (.inl rfl)
        · exact sim_undefL (.inr rfl)
      · rcases h with h | h <;> rw [h]
        · exact sim_undefR (.inl rfl)
        · exact sim_undefR (.inr rfl)

theorem s_many0 {u : Str} {p : Parser α} (hp : S u p) : S u (many0 p) :=
  fun s => s_many0Loop hp _ _ s
theorem s_many1 {u : Str} {p : Parser α} (hp : S u p) : S u (many1 p) :=
  s_bind hp fun _ => s_bind (s_many0 hp) fun _ => s_pure _

/-- The separator simulates, or nothing can follow it. -/
def SepS (u : Str) (sep : Parser β) (p : Parser α) : Prop :=
  ∀ s, Sim u (sep s) (sep (s ++ u)) ∨
    ((∀ v r, sep s = .ok v r → Er (p r)) ∧ ∀ v r, sep (s ++ u) = .ok v r → Er (p r))

theorem W.sepS {u : Str} {sep : Parser β} {p : Parser α} (h : W u sep) (hf : F p) : SepS u sep p :=
  fun s => (h s).imp_right fun ⟨h, h'⟩ => ⟨fun v r e => hf r (h v r e), fun v r e => hf r (h' v r e)⟩

/-- One round of a separated list. -/
theorem s_sepLoop {u : Str} {sep : Parser β} {p : Parser α} (hs : SepS u sep p) (hp : S u p)
    (n m : Nat) (s : Str) : Sim u (sepLoop sep p n s) (sepLoop sep p m (s ++ u)) := by
  induction n generalizing m s with
  | zero => exact sim_undefL (.inl rfl)
  | succ n ih =>
    cases m with
    | zero => exact sim_undefR (.inl rfl)
    | succ m =>
      simp only [sepLoop]
      rcases hs s with h | ⟨h, h'⟩
      · rcases h with ⟨v, r, h1, h2⟩ | ⟨h1, h2⟩ | h | h
        · rw [h1, h2]
          simp only [List.length_append, Nat.add_right_cancel_iff]
          split
          · exact sim_ok _ _
          · rcases hp r with ⟨v', r', h1, h2⟩ | ⟨h1, h2⟩ | h | h
            · rw [h1, h2]
              simp only [List.length_append, Nat.add_right_cancel_iff]
              split
              · exact sim_ok _ _
              · exact sim_andThen (ih m r') fun vs r' _ => sim_ok _ _
            · rw [h1, h2]; exact sim_ok _ _
            · rcases h with h | h <;> rw [h]
              · exact sim_undefL (.inl rfl)
              · exact sim_undefL (.inr rfl)
            · rcases h with h | h <;> rw [h]
              · exact sim_undefR (.inl rfl)
              · exact sim_undefR (.inr rfl)
        · rw [h1, h2]; exact sim_ok _ _
        · rcases h with h | h <;> rw [h]
          · exact sim_undefL (.inl rfl)
          · exact sim_undefL (.inr rfl)
        · rcases h with h | h <;> rw [h]
          · exact sim_undefR (.inl rfl)
          · exact sim_undefR (.inr rfl)
      · have key : ∀ (k : Nat) (s : Str), (∀ v r, sep s = .ok v r → Er (p r)) →
            sepLoop sep p (k + 1) s = .ok [] s ∨ Undef (sepLoop sep p (k + 1) s) := by
          intro k s h
          simp only [sepLoop]
          cases e : sep s with
          | err => exact .inl rfl
          | panic => exact .inr (.inr rfl)
          | div => exact .inr (.inl rfl)
          | ok v r =>
            simp only
            split
            · exact .inl rfl
            · have := h v r e
              cases e' : p r with
              | ok v' r' => exact absurd e' (this v' r')
              | err => exact .inl rfl
              | panic => exact .inr (.inr rfl)
              | div => exact .inr (.inl rfl)
        have k1 := key n s h
        have k2 := key m (s ++ u) h'
        simp only [sepLoop] at k1 k2
        rcases k1 with k1 | k1
        · rcases k2 with k2 | k2
          · rw [k1, k2]; exact sim_ok _ _
          · exact sim_undefR k2
        · exact sim_undefL k1

theorem s_sepNonemptyList' {u : Str} {sep : Parser β} {p : Parser α} (hs : SepS u sep p)
    (hp : S u p) : S u (sepNonemptyList sep p) := fun s => by
  unfold sepNonemptyList
  refine sim_andThen (hp s) fun v r _ => ?_
  simp only [List.length_append, Nat.add_right_cancel_iff]
  split
  · exact sim_err
  · exact sim_andThen (s_sepLoop hs hp _ _ r) fun vs r' _ => sim_ok _ _

theorem s_sepNonemptyList {u : Str} {sep : Parser β} {p : Parser α} (hs : W u sep) (hp : S u p)
    (hf : F p) : S u (sepNonemptyList sep p) := s_sepNonemptyList' (hs.sepS hf) hp

theorem s_sepList {u : Str} {sep : Parser β} {p : Parser α} (hs : W u sep) (hp : S u p)
    (hf : F p) : S u (sepList sep p) := fun s => by
  unfold sepList
  rcases hp s with ⟨v, r, h1, h2⟩ | ⟨h1, h2⟩ | h | h
  · rw [h1, h2]
    simp only [List.length_append, Nat.add_right_cancel_iff]
    split
    · exact sim_err
    · exact sim_andThen (s_sepLoop (hs.sepS hf) hp _ _ r) fun vs r' _ => sim_ok _ _
  · rw [h1, h2]; exact sim_ok _ _
  · rcases h with h | h <;> rw [h]
    · exact sim_undefL (.inl rfl)
    · exact sim_undefL (.inr rfl)
  · rcases h with h | h <;> rw [h]
    · exact sim_undefR (.inl rfl)
    · exact sim_undefR (.inr rfl)

theorem t_sepList {sep : Parser β} {p : Parser α} (hf : F p) : T (sepList sep p) := fun t ht => by
  unfold sepList
  have := hf t ht
  cases e : p t with
  | ok v r => exact absurd e (this v r)
  | err => intro v r h; cases h; exact ht
  | panic => exact er_panic.fin
  | div => exact er_div.fin

theorem f_sepNonemptyList {sep : Parser β} {p : Parser α} (hf : F p) : F (sepNonemptyList sep p) :=
  fun t ht => er_andThen (hf t ht)

/-- A parser that fails on every start of a tail. -/
theorem f_of {p : Parser α} (h0 : Er (p [])) (h1 : ∀ t, Er (p (' ' :: t)))
    (h2 : ∀ t, Er (p ('\t' :: t))) (h3 : ∀ t, Er (p ('\r' :: t))) (h4 : ∀ t, Er (p ('\n' :: t)))
    (h5 : ∀ t, Er (p ('-' :: '-' :: t))) : F p := fun t ht => by
  rcases ht.head with rfl | ⟨t', rfl | rfl | rfl | rfl | rfl⟩
  · exact h0
  · exact h1 _
  · exact h2 _
  · exact h3 _
  · exact h4 _
  · exact h5 _

/-- Failure on a tail, by running the parser on its first characters. -/
macro "f_tac" : tactic => `(tactic| (refine f_of ?_ ?_ ?_ ?_ ?_ ?_ <;> intros <;> exact er_err))

/-- The simulation of a parser that always answers. -/
theorem S.cases {u : Str} {p : Parser α} (h : S u p) (hp : ∀ k, Good k p) (s : Str) :
    (∃ v r, p s = .ok v r ∧ p (s ++ u) = .ok v (r ++ u)) ∨ (p s = .err ∧ p (s ++ u) = .err) := by
  have tot : ∀ s, ¬ Undef (p s) := by
    intro s h
    rcases hp (s.length + 1) s (Nat.lt_succ_self _) with e | ⟨v, r', e, -⟩ <;> rw [e] at h <;>
      rcases h with h | h <;> cases h
  rcases h s with h | h | h | h
  · exact .inl h
  · exact .inr h
  · exact absurd h (tot s)
  · exact absurd h (tot _)

/-! ### Tokens -/

section
variable {u : Str} (hu : NlWhite u)
include hu

theorem NlWhite.not_mem {c : Char} (h : ¬ White c) : c ∉ u := fun hc => h (hu.whites c hc)

theorem s_char {c : Char} (hc : c ≠ '\n') : S u (char c) := fun s => by
  cases s with
  | nil =>
    obtain ⟨w, rfl, -⟩ := hu
    refine Er.sim er_err ?_
    rw [List.nil_append, char_cons_ne _ (Ne.symm hc)]
    exact er_err
  | cons d s =>
    simp only [char, List.cons_append]
    split
    · exact sim_ok _ _
    · exact sim_err

theorem stripPrefix_nl {t s : Str} (ht : '\n' ∉ t) :
    stripPrefix t (s ++ u) = (stripPrefix t s).map (· ++ u) := by
  induction t generalizing s with
  | nil => rfl
  | cons c t ih =>
    have h1 : c ≠ '\n' := fun h => ht (by simp [h])
    cases s with
    | nil =>
      obtain ⟨w, rfl, -⟩ := hu
      simp [stripPrefix, Ne.symm h1]
    | cons d s =>
      simp only [stripPrefix, List.cons_append]
      split
      · exact ih fun h => ht (by simp [h])
      · rfl

theorem s_tag {t : Str} (ht : '\n' ∉ t) : S u (tag t) := fun s => by
  unfold tag
  rw [stripPrefix_nl hu ht]
  cases stripPrefix t s with
  | none => exact sim_err
  | some r => exact sim_ok _ _

theorem takeWhile_nl {f : Char → Bool} (hf : f '\n' = false) (s : Str) :
    (s ++ u).takeWhile f = s.takeWhile f ∧ (s ++ u).dropWhile f = s.dropWhile f ++ u := by
  obtain ⟨w, rfl, -⟩ := hu
  induction s with
  | nil => simp [hf]
  | cons c s ih =>
    by_cases h : f c = true
    · simp [h, ih.1, ih.2]
    · simp [h]

theorem s_takeWhile1 {f : Char → Bool} (hf : f '\n' = false) : S u (takeWhile1 f) := fun s => by
  unfold takeWhile1
  rw [(takeWhile_nl hu hf s).1, (takeWhile_nl hu hf s).2]
  cases s.takeWhile f with
  | nil => exact sim_err
  | cons c cs => exact sim_ok _ _

theorem s_reHeadTail {h t : Char → Bool} (hh : h '\n' = false) (ht : t '\n' = false) :
    S u (reMatches (reHeadTail h t)) := fun s => by
  unfold reMatches reHeadTail
  cases s with
  | nil =>
    obtain ⟨w, rfl, -⟩ := hu
    simp only [List.nil_append, hh]
    exact sim_err
  | cons c s =>
    simp only [List.cons_append]
    rw [(takeWhile_nl hu ht s).1, (takeWhile_nl hu ht s).2]
    cases h c with
    | false => exact sim_err
    | true => exact sim_ok _ _

theorem s_reStar {f : Char → Bool} (hf : f '\n' = false) : S u (reMatches (reStar f)) := fun s => by
  unfold reMatches reStar
  simp only
  rw [(takeWhile_nl hu hf s).1, (takeWhile_nl hu hf s).2]
  exact sim_ok _ _

theorem s_loName : S u loName :=
  s_alt (s_tag hu (by decide)) (s_bind (s_reHeadTail hu rfl rfl) fun _ => s_bind (s_index _ _) fun _ => by
    split
    · exact s_fail
    · exact s_pure _)
theorem s_upName : S u upName := s_bind (s_reHeadTail hu rfl rfl) fun _ => s_index _ _
theorem s_operator : S u operator :=
  s_bind (s_reHeadTail hu rfl rfl) fun _ => s_bind (s_index _ _) fun _ => by
    split
    · exact s_fail
    · exact s_pure _
theorem s_spaces : S u spaces := s_takeWhile1 hu rfl
theorem s_spaces0 : S u spaces0 := s_pmap (s_opt (s_takeWhile1 hu rfl))
theorem s_singleLineComment : S u singleLineComment :=
  s_bind (s_bind (s_tag hu (by decide)) fun _ => s_reStar hu rfl) fun _ => s_index _ _
theorem s_digit : S u digit := s_takeWhile1 hu rfl

omit hu
theorem f_loName : F loName := by f_tac
theorem f_upName : F upName := by f_tac
theorem f_char {c : Char} (h1 : ¬ White c) (h2 : c ≠ '-') : F (char c) := by
  have hd : ∀ d : Char, d ≠ c → ∀ t, Er (char c (d :: t)) := fun d h t => by
    rw [char_cons_ne _ h]; exact er_err
  have w : ∀ d : Char, White d → d ≠ c := fun d hd he => h1 (he ▸ hd)
  exact f_of er_err (hd _ (w _ (by decide))) (hd _ (w _ (by decide))) (hd _ (w _ (by decide)))
    (hd _ (w _ (by decide))) fun t => hd _ (Ne.symm h2) _
include hu

/-! ### White space -/

omit hu in
theorem g_takeWhile {f : Char → Bool} (hf : ∀ c, f c = true → White c) (s : Str) :
    Tail s ∨ ((s ++ u).takeWhile f = s.takeWhile f ∧ (s ++ u).dropWhile f = s.dropWhile f ++ u) := by
  induction s with
  | nil => exact .inl .nil
  | cons c s ih =>
    by_cases h : f c = true
    · rcases ih with ih | ih
      · exact .inl (.white (hf c h) ih)
      · exact .inr (by simp [h, ih.1, ih.2])
    · exact .inr (by simp [h])

theorem g_takeWhile1 {f : Char → Bool} (hf : ∀ c, f c = true → White c) : G u (takeWhile1 f) where
  sim s := by
    rcases g_takeWhile hf s with h | ⟨h1, h2⟩
    · exact .inl h
    · right
      unfold takeWhile1
      rw [h1, h2]
      cases s.takeWhile f with
      | nil => exact sim_err
      | cons c cs => exact sim_ok _ _
  tail t ht v r h := by
    obtain ⟨-, -, rfl⟩ := takeWhile1_eq_ok.1 h
    refine ht.dropWhite ?_
    cases e : f '-' with
    | false => rfl
    | true => exact absurd (hf _ e) (by decide)
  back s v r h hr := by
    obtain ⟨rfl, -, h2, -⟩ := takeWhile1_iff.1 h
    exact hr.prepend fun c hc => hf c (h2 c hc)

theorem g_multispace0 : G u multispace0 where
  sim s := by
    rcases g_takeWhile (f := isMultispace) (fun c => isMultispace_iff.1) s with h | ⟨h1, h2⟩
    · exact .inl h
    · right
      unfold multispace0 takeWhile0
      rw [h1, h2]
      exact sim_ok _ _
  tail t ht v r h := by
    cases h
    exact ht.dropWhite rfl
  back s v r h hr := by
    obtain ⟨rfl, h2, -⟩ := multispace0_iff.1 h
    exact hr.prepend h2

theorem g_multispace : G u multispace := g_takeWhile1 hu fun _ => isMultispace_iff.1
theorem g_spacesAndNewlines : G u spacesAndNewlines := g_takeWhile1 hu fun c h => by
  simp only [Bool.or_eq_true, beq_iff_eq] at h
  rcases h with rfl | rfl <;> decide
theorem g_spaces : G u spaces := g_takeWhile1 hu fun c h => by
  simp only [beq_iff_eq] at h
  subst h; decide

omit hu in
theorem g_alt {p q : Parser α} (hp : G u p) (hq : G u q) : G u (p </> q) where
  sim s := by
    rcases hp.sim s with h | h
    · exact .inl h
    · rcases hq.sim s with h' | h'
      · exact .inl h'
      · right
        simp only [alt_apply]
        rcases h with ⟨v, r, h1, h2⟩ | ⟨h1, h2⟩ | h | h
        · rw [h1, h2]; exact sim_ok v r
        · rw [h1, h2]; exact h'
        · rcases h with h | h <;> rw [h]
          · exact sim_undefL (.inl rfl)
          · exact sim_undefL (.inr rfl)
        · rcases h with h | h <;> rw [h]
          · exact sim_undefR (.inl rfl)
          · exact sim_undefR (.inr rfl)
  tail := t_alt hp.tail hq.tail
  back s v r h hr := by
    rcases alt_eq_ok.1 h with h | ⟨-, h⟩
    · exact hp.back s v r h hr
    · exact hq.back s v r h hr

omit hu in
theorem g_pmap {p : Parser α} {f : α → β} (hp : G u p) : G u (pmap p f) where
  sim s := by
    rcases hp.sim s with h | h
    · exact .inl h
    · exact .inr (sim_andThen h fun v r _ => sim_ok _ _)
  tail := t_pmap hp.tail
  back s v r h hr := by
    obtain ⟨v', h, -⟩ := pmap_eq_ok.1 h
    exact hp.back s _ r h hr

omit hu in
theorem g_mapRes {p : Parser α} {f : α → Option β} (hp : G u p) : G u (mapRes p f) where
  sim s := by
    rcases hp.sim s with h | h
    · exact .inl h
    · right
      rw [mapRes_apply, mapRes_apply]
      refine sim_andThen h fun v r _ => ?_
      cases f v with
      | none => exact sim_err
      | some x => exact sim_ok _ _
  tail := t_mapRes hp.tail
  back s v r h hr := by
    obtain ⟨v', h, -⟩ := mapRes_eq_ok.1 h
    exact hp.back s _ r h hr

omit hu in
theorem back_many0Loop {p : Parser α} (hp : ∀ s v r, p s = .ok v r → Tail r → Tail s) (n : Nat)
    (s : Str) (v : List α) (r : Str) (h : many0Loop p n s = .ok v r) (hr : Tail r) : Tail s := by
  induction n generalizing s v with
  | zero => cases h
  | succ n ih =>
    simp only [many0Loop] at h
    cases e : p s with
    | err => rw [e] at h; cases h; exact hr
    | panic => rw [e] at h; cases h
    | div => rw [e] at h; cases h
    | ok x s' =>
      rw [e] at h
      simp only at h
      split at h
      · cases h; exact hr
      · obtain ⟨vs, r1, h1, h2⟩ := andThen_eq_ok.1 h
        cases h2
        exact hp s x s' e (ih s' vs h1)

omit hu in
theorem g_many0Loop {p : Parser α} (hp : G u p) (n m : Nat) (s : Str) :
    Tail s ∨ Sim u (many0Loop p n s) (many0Loop p m (s ++ u)) := by
  induction n generalizing m s with
  | zero => exact .inr (sim_undefL (.inl rfl))
  | succ n ih =>
    cases m with
    | zero => exact .inr (sim_undefR (.inl rfl))
    | succ m =>
      rcases hp.sim s with h | h
      · exact .inl h
      · simp only [many0Loop]
        rcases h with ⟨v, r, h1, h2⟩ | ⟨h1, h2⟩ | h | h
        · rcases ih m r with h | h
          · exact .inl (hp.back s v r h1 h)
          · right
            rw [h1, h2]
            simp only [List.append_left_inj]
            split
            · exact sim_ok _ _
            · exact sim_andThen h fun vs r' _ => sim_ok _ _
        · rw [h1, h2]; exact .inr (sim_ok _ _)
        · rcases h with h | h <;> rw [h]
          · exact .inr (sim_undefL (.inl rfl))
          · exact .inr (sim_undefL (.inr rfl))
        · rcases h with h | h <;> rw [h]
          · exact .inr (sim_undefR (.inl rfl))
          · exact .inr (sim_undefR (.inr rfl))

omit hu in
theorem g_many1 {p : Parser α} (hp : G u p) : G u (many1 p) where
  sim s := by
    rcases hp.sim s with h | h
    · exact .inl h
    · rw [many1_apply, many1_apply]
      rcases h with ⟨v, r, h1, h2⟩ | ⟨h1, h2⟩ | h | h
      · rcases g_many0Loop hp (r.length + 1) ((r ++ u).length + 1) r with h | h
        · exact .inl (hp.back s v r h1 h)
        · right
          rw [h1, h2, andThen_ok, andThen_ok]
          exact sim_andThen h fun vs r' _ => sim_ok _ _
      · rw [h1, h2]; exact .inr sim_err
      · exact .inr (sim_undefL (undef_andThen h))
      · exact .inr (sim_undefR (undef_andThen h))
  tail := t_many1 hp.tail
  back s v r h hr := by
    rw [many1_apply] at h
    obtain ⟨v1, r1, h1, h2⟩ := andThen_eq_ok.1 h
    obtain ⟨v2, r2, h3, h4⟩ := andThen_eq_ok.1 h2
    cases h4
    exact hp.back s v1 r1 h1 (back_many0Loop hp.back _ r1 v2 r h3 hr)

theorem g_singleLineComment : G u singleLineComment where
  sim s := .inr (s_singleLineComment hu s)
  tail t ht v r h := by
    obtain ⟨h1, h2, h3⟩ := singleLineComment_iff.1 h
    cases ht with
    | nil => cases h1
    | white hc _ => cases h1; exact absurd hc (by decide)
    | @comment x t' hx ht' h' =>
      rw [singleLineComment_iff.2 ⟨List.cons_append.symm ▸ rfl, hx, ht'⟩] at h
      cases h
      exact h'
  back s v r h hr := by
    obtain ⟨rfl, h2, h3⟩ := singleLineComment_iff.1 h
    exact .comment h2 h3 hr

omit hu in
theorem g_bind {p : Parser α} {q : α → Parser β} (hp : G u p) (hq : ∀ v, G u (q v)) :
    G u (p >>= q) where
  sim s := by
    rcases hp.sim s with h | h
    · exact .inl h
    · simp only [bind_apply]
      rcases h with ⟨v, r, h1, h2⟩ | ⟨h1, h2⟩ | h | h
      · rcases (hq v).sim r with h | h
        · exact .inl (hp.back s v r h1 h)
        · right
          rw [h1, h2]
          exact h
      · rw [h1, h2]; exact .inr sim_err
      · exact .inr (sim_undefL (undef_andThen h))
      · exact .inr (sim_undefR (undef_andThen h))
  tail := t_bind hp.tail fun v => (hq v).tail
  back s v r h hr := by
    obtain ⟨v1, r1, h1, h2⟩ := bind_eq_ok.1 h
    exact hp.back s v1 r1 h1 ((hq v1).back r1 v r h2 hr)

omit hu in
theorem g_pure (v : α) : G u (pure v : Parser α) where
  sim s := .inr (sim_ok v s)
  tail := t_pure v
  back s w r h hr := by cases h; exact hr

omit hu in
theorem g_opt {p : Parser α} (hp : G u p) : G u (opt p) := g_alt (g_pmap hp) (g_pure _)

omit hu in
theorem g_charNl : G u (char '\n') where
  sim s := by
    cases s with
    | nil => exact .inl .nil
    | cons d s =>
      right
      simp only [char, List.cons_append]
      split
      · exact sim_ok _ _
      · exact sim_err
  tail t ht v r h := by
    obtain ⟨rfl, rfl⟩ := char_eq_ok.1 h
    cases ht with
    | white _ h' => exact h'
  back s v r h hr := by
    obtain ⟨rfl, rfl⟩ := char_eq_ok.1 h
    exact .white (by decide) hr

theorem g_spaces0 : G u spaces0 := g_pmap (g_opt (g_spaces hu))
theorem g_newLineItem : G u newLineItem :=
  g_bind g_charNl fun _ => g_alt (g_pmap (g_spaces0 hu)) (g_pmap (g_singleLineComment hu))
theorem g_gapItem (ind : Nat) : G u (gapItem ind) :=
  g_alt (g_pmap (g_spaces hu)) (g_alt (g_pmap (g_singleLineComment hu)) (g_many1 (g_newLineItem hu)))
theorem g_gap (ind : Nat) (ir : IR) : G u (gap ind ir) := g_mapRes (g_many1 (g_gapItem hu ind))
theorem g_newLineAndSameIndent (ind : Nat) : G u (newLineAndSameIndent ind) :=
  g_mapRes (g_bind g_charNl fun _ => g_pmap (g_spaces0 hu))
theorem g_optGap (ind : Nat) (ir : IR) : G u (optGap ind ir) := g_pmap (g_opt (g_gap hu ind ir))

theorem w_gap (ind : Nat) (ir : IR) : W u (gap ind ir) := (g_gap hu ind ir).w hu
theorem w_opt (ind : Nat) (ir : IR) : W u (opt (gap ind ir)) := (g_opt (g_gap hu ind ir)).w hu
theorem w_optGap (ind : Nat) (ir : IR) : W u (optGap ind ir) := (g_optGap hu ind ir).w hu
theorem t_optGap' (ind : Nat) (ir : IR) : T (opt (gap ind ir)) := (g_opt (g_gap hu ind ir)).tail
theorem t_optGap (ind : Nat) (ir : IR) : T (optGap ind ir) := (g_optGap hu ind ir).tail
theorem w_multispace0 : W u multispace0 := (g_multispace0 hu).w hu
theorem w_multispace : W u multispace := (g_multispace hu).w hu
theorem w_sn : W u spacesAndNewlines := (g_spacesAndNewlines hu).w hu

/-- Whatever follows a gap at the end of the text sees no spaces and no comment. -/
theorem s_gap_bind {ind : Nat} {ir : IR} {q : Nat → Parser β} (hq : ∀ v, S u (q v))
    (hf : ∀ v t, Tail t → NoGap t → Er (q v t)) : S u (gap ind ir >>= q) := fun s => by
  have stop : ∀ s v r, gap ind ir s = .ok v r → NoGap r := by
    intro s v r h
    obtain ⟨ls, last, hg, -⟩ := gap_iff.1 h
    rcases hg.stop with ⟨-, h⟩ | ⟨-, rfl⟩
    · exact h
    · exact noGap_nil
  have er : ∀ s, Fin (gap ind ir s) → Er ((gap ind ir >>= q) s) := by
    intro s h
    simp only [bind_apply]
    cases e : gap ind ir s with
    | ok v r => exact hf v r (h v r e) (stop s v r e)
    | err => exact er_err
    | panic => exact er_panic
    | div => exact er_div
  rcases w_gap hu ind ir s with h | ⟨h, h'⟩
  · exact sim_andThen h fun v r _ => hq v r
  · exact Er.sim (er _ h) (er _ h')

/-! ### Brackets -/

theorem w_open {c : Char} (hc : c ≠ '\n') (ind : Nat) : W u (preceded (char c) (opt (gap ind .GTE))) :=
  sw_bind (s_char hu hc) fun _ => w_opt hu _ _
theorem s_close {c : Char} (h1 : ¬ White c) (h2 : c ≠ '-') (ind : Nat) :
    S u (terminated (opt (gap ind .GTE)) (char c)) :=
  ws_bind (w_opt hu _ _) (fun _ => s_bind (s_char hu fun h => h1 (h ▸ by decide)) fun _ => s_pure _)
    fun _ => f_bind (f_char h1 h2)
theorem f_close {c : Char} (h1 : ¬ White c) (h2 : c ≠ '-') (ind : Nat) :
    F (terminated (opt (gap ind .GTE)) (char c)) :=
  f_bindT (t_optGap' hu _ _) fun _ => f_bind (f_char h1 h2)
omit hu in
theorem w_sep {p : Parser α} {q : Parser β} {q' : Parser γ} (hp : W u p) (hq : S u q) (hf : F q)
    (hp' : W u q') : W u (delimited p q q') :=
  wt_bind hp (fun _ => sw_bind hq fun _ => w_pmap hp') fun _ => (f_bind hf).t
theorem w_commaSep (ind : Nat) : W u (commaSep ind) :=
  w_sep (w_opt hu _ _) (s_char hu (by decide)) (f_char (by decide) (by decide)) (w_opt hu _ _)

/-- What is between an opening and a closing bracket. -/
theorem s_brackets {p : Parser β} {a c : Char} (ha : a ≠ '\n') (h1 : ¬ White c) (h2 : c ≠ '-')
    (ind : Nat) (hp : S u p) (ht : T p) :
    S u (delimited (preceded (char a) (opt (gap ind .GTE))) p
      (terminated (opt (gap ind .GTE)) (char c))) :=
  ws_bind (w_open hu ha ind) (fun _ => s_bind hp fun _ => s_bind (s_close hu h1 h2 ind) fun _ => s_pure _)
    fun _ => f_bindT ht fun _ => f_bind (f_close hu h1 h2 ind)

/-! ### Types -/

theorem s_typeVariable : S u typeVariable :=
  s_bind (s_reHeadTail hu rfl rfl) fun _ => s_bind (s_index _ _) fun _ => s_pure _
theorem s_dotted : S u (sepNonemptyList (char '.') upName) :=
  s_sepNonemptyList (s_char hu (by decide)).w (s_upName hu) f_upName
omit hu in
theorem f_typeVariable : F typeVariable := by f_tac

/-- The recursive calls simulate. -/
structure TyS (u : Str) (R : TyRec) : Prop where
  ty : ∀ ind, S u (R.type_ ind)
  ann : ∀ ind, S u (R.typeAnnotation ind)
  fty : ∀ ind, F (R.type_ ind)
  fann : ∀ ind, F (R.typeAnnotation ind)

section
variable {R : TyRec} (h : TyS u R) (ind : Nat)
include h

theorem s_typeTuple : S u (typeTuple R ind) :=
  s_pmap (s_brackets hu (by decide) (by decide) (by decide) ind
    (s_sepList (w_commaSep hu ind) (h.ty ind) (h.fty ind)) (t_sepList (h.fty ind)))

theorem s_typeRecordPair : S u (typeRecordPair R ind) :=
  s_bind (s_loName hu) fun _ =>
    ws_bind (w_opt hu _ _) (fun _ => s_bind (s_char hu (by decide)) fun _ =>
      ws_bind (w_opt hu _ _) (fun _ => s_bind (h.ann ind) fun _ => s_pure _)
        fun _ => f_bind (h.fann ind)) fun _ => f_bind (f_char (by decide) (by decide))

omit hu h in
theorem f_typeRecordPair : F (typeRecordPair R ind) := f_bind f_loName

theorem s_typeRecordPairs : S u (typeRecordPairs R ind) :=
  s_sepList (w_commaSep hu ind) (s_typeRecordPair hu h ind) (f_typeRecordPair ind)

omit hu h in
theorem t_typeRecordPairs : T (typeRecordPairs R ind) := t_sepList (f_typeRecordPair ind)

theorem s_typeRecord : S u (typeRecord R ind) :=
  s_brackets hu (by decide) (by decide) (by decide) ind (s_pmap (s_typeRecordPairs hu h ind))
    (t_pmap (t_typeRecordPairs ind))

theorem s_typeParens : S u (typeParens R ind) :=
  s_brackets hu (by decide) (by decide) (by decide) ind (h.ann ind) (h.fann ind).t

theorem s_typeRecordConstructor : S u (typeRecordConstructor R ind) := by
  unfold typeRecordConstructor delimited
  refine s_bind (s_char hu (by decide)) fun _ => ws_bind ?_
    (fun _ => s_bind (s_char hu (by decide)) fun _ => s_pure _)
    fun _ => f_bind (f_char (by decide) (by decide))
  refine wt_bind (w_gap hu _ _) (fun _ => sw_bind (s_typeVariable hu) fun _ => ?_)
    fun _ => (f_bind f_typeVariable).t
  refine wt_bind (w_gap hu _ _) (fun _ => sw_bind (s_char hu (by decide)) fun _ => ?_)
    fun _ => (f_bind (f_char (by decide) (by decide))).t
  exact wt_bind (w_gap hu _ _)
    (fun _ => sw_bind (s_typeRecordPairs hu h ind) fun _ =>
      wt_bind (w_gap hu _ _) (fun _ => (s_pure _).w) fun _ => t_pure _)
    fun _ => t_bind (t_typeRecordPairs ind) fun _ => t_bind (g_gap hu _ _).tail fun _ => t_pure _

omit hu h in
theorem f_typeParameter : F (typeParameter R ind) := by f_tac
omit hu h in
theorem f_typeF : F (typeF R ind) := by f_tac

theorem s_typeParameter : S u (typeParameter R ind) :=
  s_alt (s_typeVariable hu) (s_alt (s_pmap (s_dotted hu)) (s_alt (s_typeRecordConstructor hu h ind)
    (s_alt (s_typeRecord hu h ind) (s_alt (s_typeTuple hu h ind) (s_typeParens hu h ind)))))

theorem s_typeConstructorF : S u (typeConstructorF R ind) :=
  s_bind (s_dotted hu) fun _ => s_bind
    (s_many0 (ws_bind (w_gap hu _ _) (fun i => s_typeParameter hu h i)
      fun i => f_typeParameter i)) fun _ => s_pure _

theorem s_typeF : S u (typeF R ind) :=
  s_alt (s_typeConstructorF hu h ind) (s_alt (s_typeVariable hu)
    (s_alt (s_typeRecordConstructor hu h ind) (s_alt (s_typeRecord hu h ind)
      (s_alt (s_typeTuple hu h ind) (s_typeParens hu h ind)))))

theorem s_typeAnnotationF : S u (typeAnnotationF R ind) :=
  s_bind (s_sepNonemptyList (w_sep (w_sn hu) (s_tag hu (by decide)) (by f_tac) (w_sn hu))
    (s_typeF hu h ind) (f_typeF ind)) fun v => by
      split
      · exact s_fail
      · split
        · exact s_index _ _
        · split
          · exact s_pure _
          · exact s_fail

omit hu h in
theorem f_typeAnnotationF : F (typeAnnotationF R ind) := f_bind (f_sepNonemptyList (f_typeF ind))
end

theorem tyS_tyN (n : Nat) : TyS u (tyN n) := by
  induction n with
  | zero =>
    exact ⟨fun _ _ => sim_undefL (.inl rfl), fun _ _ => sim_undefL (.inl rfl),
      fun _ _ _ => er_div, fun _ _ _ => er_div⟩
  | succ n ih =>
    exact ⟨s_typeF hu ih, s_typeAnnotationF hu ih, f_typeF, f_typeAnnotationF⟩

theorem tyS_tyRec : TyS u tyRec where
  ty ind s := by
    have h := (tyS_tyN hu ((s ++ u).length + 1)).ty ind s
    rw [le_eq ((tyLe_tyRec _).ty ind) (ne_div_of_good ((goodRec_tyN _).ty ind)
      (by rw [List.length_append]; omega))] at h
    exact h
  ann ind s := by
    have h := (tyS_tyN hu ((s ++ u).length + 1)).ann ind s
    rw [le_eq ((tyLe_tyRec _).ann ind) (ne_div_of_good ((goodRec_tyN _).ann ind)
      (by rw [List.length_append]; omega))] at h
    exact h
  fty ind t ht := f_typeF ind t ht
  fann ind t ht := f_typeAnnotationF ind t ht

/-! ### Literals -/

theorem s_variableP : S u variableP :=
  s_alt (s_pmap (s_loName hu)) (s_alt (s_pmap (s_dotted hu))
    (s_pmap (s_bind (s_char hu (by decide)) fun _ =>
      s_bind (s_alt (s_operator hu) (s_takeWhile1 hu rfl)) fun _ =>
        s_bind (s_char hu (by decide)) fun _ => s_pure _)))

theorem s_dotName : S u dotName :=
  s_bind (s_char hu (by decide)) fun _ => s_loName hu
theorem s_access : S u access :=
  s_bind (s_variableP hu) fun _ => s_bind (s_many1 (s_dotName hu)) fun _ => s_pure _
theorem s_accessFunction : S u accessFunction :=
  s_bind (s_char hu (by decide)) fun _ => s_bind (s_loName hu) fun _ => s_pure _

theorem stringBody_nl (s : Str) : stringBody (s ++ u) = ((stringBody s).1, (stringBody s).2 ++ u) := by
  fun_induction stringBody s with
  | case1 =>
    obtain ⟨w, rfl, -⟩ := hu
    cases w <;> simp [stringBody]
  | case2 c d s h x ih =>
    simp only [List.cons_append, stringBody, h, and_self, if_true]
    rw [ih]
  | case3 c d s h1 h2 x ih =>
    simp only [List.cons_append] at ih
    simp only [List.cons_append, stringBody, h1, if_false, h2, ne_eq, not_false_eq_true, and_self,
      if_true]
    rw [ih]
  | case4 c d s h1 h2 =>
    simp only [List.cons_append, stringBody, h1, if_false, h2]
  | case5 c h =>
    obtain ⟨w, rfl, -⟩ := hu
    cases w <;> simp [stringBody, h]
  | case6 c h =>
    obtain ⟨w, rfl, -⟩ := hu
    have : ¬ (c = '\\' ∧ ('\n' = '\\' ∨ '\n' = '"')) := by simp
    simp [stringBody, h]

theorem s_singleString : S u singleString :=
  s_bind (s_bind (s_char hu (by decide)) fun _ => s_bind (fun s => by
    simp only [reMatches, stringBody_nl hu s]
    exact sim_ok _ _) fun _ => s_bind (s_char hu (by decide)) fun _ => s_pure _) fun _ => s_index _ _

omit hu in
theorem dropWhile_nil {f : Char → Bool} {s : Str} (h : ∀ c ∈ s, f c = true) : s.dropWhile f = [] := by
  have := dropWhile_append_notStart (f := f) (a := s) (b := []) h (notStart_nil f)
  rwa [List.append_nil] at this

theorem w_multiBody : W u (reMatches (reStar fun c => c != '"')) := fun s => by
  have key : ∀ s : Str, ((s ++ u).takeWhile (fun c => c != '"') = s.takeWhile (fun c => c != '"') ∧
      (s ++ u).dropWhile (fun c => c != '"') = s.dropWhile (fun c => c != '"') ++ u) ∨
      (s.dropWhile (fun c => c != '"') = [] ∧ (s ++ u).dropWhile (fun c => c != '"') = []) := by
    intro s
    induction s with
    | nil =>
      right
      refine ⟨rfl, ?_⟩
      have h : ∀ c ∈ u, c ≠ '"' := fun c hc he => hu.not_mem (c := '"') (by decide) (he ▸ hc)
      exact dropWhile_nil fun c hc => by simpa using h c hc
    | cons c s ih =>
      by_cases h : c = '"'
      · left; simp [h]
      · rcases ih with ih | ih
        · left; simp [h, ih.1, ih.2]
        · right; simpa [h] using ih
  simp only [reMatches, reStar]
  rcases key s with ⟨h1, h2⟩ | ⟨h1, h2⟩
  · left; rw [h1, h2]; exact sim_ok _ _
  · right
    rw [h1, h2]
    exact ⟨fun v r h => by cases h; exact .nil, fun v r h => by cases h; exact .nil⟩

theorem s_multiString : S u multiString :=
  s_bind (s_bind (s_tag hu (by decide)) fun _ => ws_bind (w_multiBody hu)
    (fun _ => s_bind (s_tag hu (by decide)) fun _ => s_pure _)
    fun _ => f_bind (by f_tac)) fun _ => s_index _ _

theorem s_string : S u string := s_pmap (s_alt (s_multiString hu) (s_singleString hu))
theorem s_sign : S u sign := s_pmap (s_opt (s_alt (s_char hu (by decide)) (s_char hu (by decide))))
theorem s_float : S u float :=
  s_bind (s_sign hu) fun _ => s_bind (s_digit hu) fun _ => s_bind (s_char hu (by decide)) fun _ =>
    s_bind (s_digit hu) fun _ => s_pure _
theorem s_integer : S u integer :=
  s_bind (s_sign hu) fun _ => s_bind (s_digit hu) fun _ => s_pure _

theorem s_character : S u character := fun s => by
  have tot := err_or_ok (p := character) fun k => cons_character k
  have mk : ∀ {w r : Str} {c : Char}, CharText w c →
      character (('\'' :: w ++ ['\'']) ++ r) = .ok (.Character c) r := fun {w r c} h =>
    character_iff.2 ⟨w, c, rfl, by simp, h⟩
  rcases tot s with e | ⟨v, r, e, -⟩
  · rcases tot (s ++ u) with e' | ⟨v', r', e', -⟩
    · rw [e, e']; exact sim_err
    · exfalso
      obtain ⟨w, c, rfl, h1, h2⟩ := character_iff.1 e'
      rw [List.cons_append, show '\'' :: (w ++ '\'' :: r') = ('\'' :: w ++ ['\'']) ++ r' by simp] at h1
      rcases List.append_eq_append_iff.1 h1 with ⟨as, h3, h4⟩ | ⟨bs, h3, -⟩
      · rcases List.eq_nil_or_concat as with rfl | ⟨as', x, rfl⟩
        · rw [List.append_nil] at h3
          rw [← h3, ← List.append_nil ('\'' :: w ++ ['\'']), mk h2] at e
          cases e
        · have hx : '\'' = x := by
            rw [List.concat_eq_append, ← List.append_assoc] at h3
            have := List.append_inj_right' h3 rfl
            simpa using this
          subst hx
          exact hu.not_mem (c := '\'') (by decide) (by rw [h4]; simp)
      · rw [h3, mk h2] at e
        cases e
  · obtain ⟨w, c, rfl, h1, h2⟩ := character_iff.1 e
    rw [e, h1, show '\'' :: w ++ '\'' :: r ++ u = ('\'' :: w ++ ['\'']) ++ (r ++ u) by simp, mk h2]
    exact sim_ok _ _

/-! ### Expressions -/

/-- A success with progress that leaves only white space and comments. -/
def Ended (x : Res α) (s : Str) : Prop :=
  Undef x ∨ ∃ v r, x = .ok v r ∧ Tail r ∧ r.length < s.length

/-- A list element followed by optional white space. -/
def Wp (u : Str) (p : Parser α) : Prop :=
  ∀ s, Sim u (p s) (p (s ++ u)) ∨ (Ended (p s) s ∧ Ended (p (s ++ u)) (s ++ u))

omit hu in
theorem sepLoop_end {sep : Parser β} {p : Parser α} (hf : F sep) {n : Nat} {t : Str} (ht : Tail t) :
    sepLoop sep p n t = .ok [] t ∨ Undef (sepLoop sep p n t) := by
  cases n with
  | zero => exact .inr (.inl rfl)
  | succ n =>
    simp only [sepLoop]
    have := hf t ht
    cases e : sep t with
    | ok v r => exact absurd e (this v r)
    | err => exact .inl rfl
    | panic => exact .inr (.inr rfl)
    | div => exact .inr (.inl rfl)

omit hu in
theorem fin_undef {x : Res α} (h : Undef x) : Fin x := by
  rcases h with rfl | rfl
  · exact er_div.fin
  · exact er_panic.fin

omit hu in
theorem fin_ok {v : α} {r : Str} (h : Tail r) : Fin (.ok v r) := fun w r' e => by cases e; exact h

omit hu in
theorem w_sepLoop {sep : Parser β} {p : Parser α} (hs : S u sep) (hf : F sep) (hp : Wp u p)
    (n m : Nat) (s : Str) : Sim u (sepLoop sep p n s) (sepLoop sep p m (s ++ u)) ∨
      (Fin (sepLoop sep p n s) ∧ Fin (sepLoop sep p m (s ++ u))) := by
  induction n generalizing m s with
  | zero => exact .inl (sim_undefL (.inl rfl))
  | succ n ih =>
    cases m with
    | zero => exact .inl (sim_undefR (.inl rfl))
    | succ m =>
      simp only [sepLoop]
      rcases hs s with ⟨v, r, h1, h2⟩ | ⟨h1, h2⟩ | h | h
      · rw [h1, h2]
        simp only [List.length_append, Nat.add_right_cancel_iff]
        split
        · exact .inl (sim_ok _ _)
        · rcases hp r with h | ⟨h, h'⟩
          · rcases h with ⟨v', r', h1, h2⟩ | ⟨h1, h2⟩ | h | h
            · rw [h1, h2]
              simp only [List.length_append, Nat.add_right_cancel_iff]
              split
              · exact .inl (sim_ok _ _)
              · rcases ih m r' with h | ⟨h, h'⟩
                · exact .inl (sim_andThen h fun vs r' _ => sim_ok _ _)
                · exact .inr ⟨fin_andThen h fun _ _ hr => fin_ok hr, fin_andThen h' fun _ _ hr => fin_ok hr⟩
            · rw [h1, h2]; exact .inl (sim_ok _ _)
            · rcases h with h | h <;> rw [h]
              · exact .inl (sim_undefL (.inl rfl))
              · exact .inl (sim_undefL (.inr rfl))
            · rcases h with h | h <;> rw [h]
              · exact .inl (sim_undefR (.inl rfl))
              · exact .inl (sim_undefR (.inr rfl))
          · rcases h with h | ⟨v, r1, h1, h2, h3⟩
            · rcases h with h | h <;> rw [h]
              · exact .inl (sim_undefL (.inl rfl))
              · exact .inl (sim_undefL (.inr rfl))
            · rcases h' with h | ⟨v', r2, h4, h5, h6⟩
              · rcases h with h | h <;> rw [h]
                · exact .inl (sim_undefR (.inl rfl))
                · exact .inl (sim_undefR (.inr rfl))
              · right
                rw [h1, h4]
                simp only [List.length_append] at h6
                simp only [show r1.length ≠ r.length by omega,
                  show r2.length ≠ r.length + u.length by omega, if_false]
                constructor
                · rcases sepLoop_end (p := p) (n := n) hf h2 with e | e
                  · rw [e]; exact fin_ok h2
                  · exact fin_undef (undef_andThen e)
                · rcases sepLoop_end (p := p) (n := m) hf h5 with e | e
                  · rw [e]; exact fin_ok h5
                  · exact fin_undef (undef_andThen e)
      · rw [h1, h2]; exact .inl (sim_ok _ _)
      · rcases h with h | h <;> rw [h]
        · exact .inl (sim_undefL (.inl rfl))
        · exact .inl (sim_undefL (.inr rfl))
      · rcases h with h | h <;> rw [h]
        · exact .inl (sim_undefR (.inl rfl))
        · exact .inl (sim_undefR (.inr rfl))

omit hu in
theorem w_sepList {sep : Parser β} {p : Parser α} (hs : S u sep) (hf : F sep) (hp : Wp u p) :
    W u (sepList sep p) := fun s => by
  unfold sepList
  rcases hp s with h | ⟨h, h'⟩
  · rcases h with ⟨v, r, h1, h2⟩ | ⟨h1, h2⟩ | h | h
    · rw [h1, h2]
      simp only [List.length_append, Nat.add_right_cancel_iff]
      split
      · exact .inl sim_err
      · rcases w_sepLoop hs hf hp (r.length + 1) ((r.length + u.length) + 1) r with h | ⟨h, h'⟩
        · exact .inl (sim_andThen h fun vs r' _ => sim_ok _ _)
        · exact .inr ⟨fin_andThen h fun _ _ hr => fin_ok hr, fin_andThen h' fun _ _ hr => fin_ok hr⟩
    · rw [h1, h2]; exact .inl (sim_ok _ _)
    · rcases h with h | h <;> rw [h]
      · exact .inl (sim_undefL (.inl rfl))
      · exact .inl (sim_undefL (.inr rfl))
    · rcases h with h | h <;> rw [h]
      · exact .inl (sim_undefR (.inl rfl))
      · exact .inl (sim_undefR (.inr rfl))
  · rcases h with h | ⟨v, r1, h1, h2, h3⟩
    · rcases h with h | h <;> rw [h]
      · exact .inl (sim_undefL (.inl rfl))
      · exact .inl (sim_undefL (.inr rfl))
    · rcases h' with h | ⟨v', r2, h4, h5, h6⟩
      · rcases h with h | h <;> rw [h]
        · exact .inl (sim_undefR (.inl rfl))
        · exact .inl (sim_undefR (.inr rfl))
      · right
        rw [h1, h4]
        simp only [show r1.length ≠ s.length by omega, show r2.length ≠ (s ++ u).length by omega, if_false]
        constructor
        · rcases sepLoop_end (p := p) (n := r1.length + 1) hf h2 with e | e
          · rw [e]; exact fin_ok h2
          · exact fin_undef (undef_andThen e)
        · rcases sepLoop_end (p := p) (n := r2.length + 1) hf h5 with e | e
          · rw [e]; exact fin_ok h5
          · exact fin_undef (undef_andThen e)

theorem wp_spaced {p : Parser α} {f : α → β} (hp : S u p) (hf : F p)
    (hl : ∀ s v r, p s = .ok v r → r.length < s.length) :
    Wp u (multispace0 >>= fun _ => p >>= fun v => multispace0 >>= fun _ => pure (f v)) := fun s => by
  have len : ∀ (s v r : Str), multispace0 s = .ok v r → r.length ≤ s.length := by
    intro s v r h
    obtain ⟨rfl, -⟩ := multispace0_iff.1 h
    simp
  have ok : ∀ s : Str, ∃ v r, multispace0 s = .ok v r := fun s => ⟨_, _, rfl⟩
  rcases (g_multispace0 hu).sim s with ht | ht
  · left
    refine Er.sim ?_ ?_
    · exact f_bindT (g_multispace0 hu).tail (fun _ => f_bind hf) s ht
    · exact f_bindT (g_multispace0 hu).tail (fun _ => f_bind hf) _ (ht.append hu)
  · rcases ht with ⟨v, r, h1, h2⟩ | ⟨h1, h2⟩ | h | h
    · simp only [bind_apply, h1, h2, andThen_ok]
      rcases hp r with ⟨x, r2, h3, h4⟩ | ⟨h3, h4⟩ | h | h
      · simp only [h3, h4, andThen_ok]
        have l1 := len _ _ _ h1
        have l2 := hl _ _ _ h3
        have l3 := len _ _ _ h2
        have l4 := hl _ _ _ h4
        rcases (g_multispace0 hu).sim r2 with ht | ht
        · right
          constructor
          · obtain ⟨v3, r3, e⟩ := ok r2
            have := len _ _ _ e
            exact .inr ⟨f x, r3, by rw [bind_apply, e]; rfl, (g_multispace0 hu).tail _ ht _ _ e, by omega⟩
          · obtain ⟨v3, r3, e⟩ := ok (r2 ++ u)
            have := len _ _ _ e
            exact .inr ⟨f x, r3, by rw [bind_apply, e]; rfl, (g_multispace0 hu).tail _ (ht.append hu) _ _ e,
              by omega⟩
        · exact .inl (sim_andThen ht fun _ _ _ => sim_ok _ _)
      · rw [h3, h4]; exact .inl sim_err
      · exact .inl (sim_undefL (undef_andThen h))
      · exact .inl (sim_undefR (undef_andThen h))
    · obtain ⟨v, r, e⟩ := ok s
      rw [h1] at e; cases e
    · obtain ⟨v, r, e⟩ := ok s
      rcases h with h | h <;> rw [h] at e <;> cases e
    · obtain ⟨v, r, e⟩ := ok (s ++ u)
      rcases h with h | h <;> rw [h] at e <;> cases e

/-- The recursive calls simulate. -/
structure ExS (u : Str) (rc : ExprRec) : Prop where
  s : ∀ ind, S u (rc ind)
  f : ∀ ind, F (rc ind)
  lt : ∀ ind s v r, rc ind s = .ok v r → r.length < s.length

section
variable {rc : ExprRec} (h : ExS u rc) (ind : Nat)
include h

theorem s_tuple : S u (tuple rc ind) :=
  s_pmap (s_bind (s_char hu (by decide)) fun _ =>
    ws_bind (w_sepList (s_char hu (by decide)) (f_char (by decide) (by decide))
      (wp_spaced hu (f := id) (h.s ind) (h.f ind) (h.lt ind)))
      (fun _ => s_bind (s_char hu (by decide)) fun _ => s_pure _)
      fun _ => f_bind (f_char (by decide) (by decide)))

theorem s_list : S u (list rc ind) :=
  s_pmap (s_brackets hu (by decide) (by decide) (by decide) ind
    (s_opt (s_sepList (w_commaSep hu ind) (h.s ind) (h.f ind))) (t_opt (t_sepList (h.f ind))))

theorem s_recordField : S u (recordField rc ind) :=
  s_bind (s_loName hu) fun _ => ws_bind (w_sep (w_opt hu _ _) (s_char hu (by decide))
    (f_char (by decide) (by decide)) (w_opt hu _ _)) (fun _ => s_bind (h.s ind) fun _ => s_pure _)
    fun _ => f_bind (h.f ind)

theorem s_record : S u (record rc ind) :=
  s_pmap (s_brackets hu (by decide) (by decide) (by decide) ind
    (s_sepList (w_commaSep hu ind) (s_recordField hu h ind) (f_bind f_loName))
    (t_sepList (f_bind f_loName)))

omit h in
theorem s_simplifiedRecord : S u simplifiedRecord :=
  s_pmap (s_bind (s_char hu (by decide)) fun _ =>
    ws_bind (w_sepList (s_char hu (by decide)) (f_char (by decide) (by decide))
      (wp_spaced hu (f := fun name => (name, Expr.Variable [name])) (s_loName hu) f_loName
        fun s v r e => lt_of_ok cons_loName e))
      (fun _ => s_bind (s_char hu (by decide)) fun _ => s_pure _)
      fun _ => f_bind (f_char (by decide) (by decide)))

theorem s_updateField : S u (updateField rc ind) :=
  s_bind (s_loName hu) fun _ =>
    ws_bind (w_multispace0 hu) (fun _ => s_bind (s_char hu (by decide)) fun _ =>
      ws_bind (w_multispace0 hu) (fun _ => s_bind (h.s ind) fun _ => s_pure _)
        fun _ => f_bind (h.f ind)) fun _ => f_bind (f_char (by decide) (by decide))

theorem s_recordUpdate : S u (recordUpdate rc ind) := by
  have fin : S u (terminated (gap ind .GTE) (char '}')) :=
    ws_bind (w_gap hu _ _) (fun _ => s_bind (s_char hu (by decide)) fun _ => s_pure _)
      fun _ => f_bind (f_char (by decide) (by decide))
  have ffin : F (terminated (gap ind .GTE) (char '}')) :=
    f_bindT (g_gap hu _ _).tail fun _ => f_bind (f_char (by decide) (by decide))
  have fu : F (updateField rc ind) := f_bind f_loName
  unfold recordUpdate delimited
  refine ws_bind (sw_bind (s_char hu (by decide)) fun _ => w_optGap hu _ _) (fun _ => ?_)
    fun _ => f_bind (f_bind f_loName)
  refine ws_bind (sw_bind (s_loName hu) fun _ => ?_) (fun _ => s_bind fin fun _ => s_pure _)
    fun _ => f_bind ffin
  refine wt_bind (w_optGap hu _ _) (fun _ => sw_bind (s_char hu (by decide)) fun _ => ?_)
    fun _ => (f_bind (f_char (by decide) (by decide))).t
  exact wt_bind (w_multispace0 hu) (fun _ => (s_bind (s_sepList
    (w_sep (w_optGap hu _ _) (s_char hu (by decide)) (f_char (by decide) (by decide)) (w_optGap hu _ _))
    (s_updateField hu h ind) fu) fun _ => s_pure _).w)
    fun _ => t_bind (t_sepList fu) fun _ => t_pure _

theorem s_parens : S u (parens rc ind) :=
  s_bind (s_char hu (by decide)) fun _ => s_bind (h.s ind) fun _ =>
    s_bind (s_char hu (by decide)) fun _ => s_pure _

theorem s_termF : S u (termF rc ind) :=
  s_alt (s_access hu) (s_alt (s_variableP hu) (s_alt (s_accessFunction hu) (s_alt (s_string hu)
    (s_alt (s_float hu) (s_alt (s_integer hu) (s_alt (s_character hu) (s_alt (s_parens hu h ind)
      (s_alt (s_list hu h ind) (s_alt (s_tuple hu h ind) (s_alt (s_recordUpdate hu h ind)
        (s_alt (s_record hu h ind) (s_simplifiedRecord hu))))))))))))

omit hu h in
theorem f_termF : F (termF rc ind) := by f_tac

omit h in
/-- A keyword or symbol, surrounded by gaps, and what follows it. -/
theorem s_word {t : Str} (h1 : '\n' ∉ t) (h2 : F (tag t)) {k k' : Nat} {ir ir' : IR}
    {q : Nat → Parser β} (hq : ∀ v, S u (q v)) (hf : ∀ v, F (q v)) :
    S u (gap k ir >>= fun _ => tag t >>= fun _ => gap k' ir' >>= q) :=
  ws_bind (w_gap hu _ _) (fun _ => s_bind (s_tag hu h1) fun _ => ws_bind (w_gap hu _ _) hq hf)
    fun _ => f_bind h2

theorem s_lambda : S u (lambda rc ind) :=
  s_bind (s_char hu (by decide)) fun _ =>
    s_bind (s_sepNonemptyList (s_takeWhile1 hu rfl).w (s_termF hu h ind) (f_termF ind)) fun _ =>
      s_word hu (by decide) (by f_tac) (fun i => s_bind (h.s i) fun _ => s_pure _)
        fun i => f_bind (h.f i)

theorem s_applicationOrVar : S u (applicationOrVar rc ind) :=
  s_bind (s_sepList (w_gap hu _ _) (s_termF hu h ind) (f_termF ind)) fun v => by
    split
    · exact s_fail
    · split
      · exact s_index _ _
      · exact s_bind (s_index _ _) fun _ => s_bind (s_index _ _) fun _ => s_pure _

omit h in
theorem s_functionNameOrOp : S u functionNameOrOp :=
  s_alt (s_loName hu) (s_bind (s_char hu (by decide)) fun _ => s_bind (s_operator hu) fun _ =>
    s_bind (s_char hu (by decide)) fun _ => s_pure _)

omit h in
theorem s_functionSignature : S u (functionSignature ind) :=
  s_bind (s_functionNameOrOp hu) fun _ => s_bind (s_spaces hu) fun _ =>
    s_bind (s_char hu (by decide)) fun _ =>
      ws_bind (w_gap hu _ _) (fun i => s_bind ((tyS_tyRec hu).ann i) fun _ => s_pure _)
        fun i => f_bind ((tyS_tyRec hu).fann i)

theorem s_functionDefinitionF : S u (functionDefinitionF rc ind) :=
  s_bind (s_functionNameOrOp hu) fun _ =>
    s_bind (s_many0 (s_bind (s_spaces hu) fun _ => s_termF hu h ind)) fun _ =>
      s_bind (s_spaces hu) fun _ => s_bind (s_char hu (by decide)) fun _ =>
        ws_bind (w_gap hu _ _) (fun i => s_bind (h.s i) fun _ => s_pure _) fun i => f_bind (h.f i)

omit hu h in
theorem f_functionDefinitionF : F (functionDefinitionF rc ind) := f_bind (by f_tac)

omit hu h in
/-- Where there is a signature there is no definition. -/
theorem er_definition {s r : Str} {x : FunctionSignature} (e : functionSignature ind s = .ok x r) :
    Er (functionDefinitionF rc ind s) := by
  obtain ⟨name, r1, e1, e2⟩ := bind_eq_ok.1 e
  obtain ⟨sp, r2, e3, e4⟩ := bind_eq_ok.1 e2
  obtain ⟨c, r3, e5, -⟩ := bind_eq_ok.1 e4
  obtain ⟨rfl, rfl⟩ := char_eq_ok.1 e5
  have e6 : (preceded spaces (termF rc ind)) r1 = .err := by
    rw [preceded_apply, e3]; rfl
  have e7 : many0 (preceded spaces (termF rc ind)) r1 = .ok [] r1 := by
    simp only [many0, many0Loop, e6]
  unfold functionDefinitionF
  rw [bind_apply, e1, andThen_ok, bind_apply, e7, andThen_ok, bind_apply, e3]
  exact er_err

theorem s_functionF : S u (functionF rc ind) := fun s => by
  have hd := s_functionDefinitionF hu h ind
  have unf : ∀ s : Str, functionF rc ind s =
      (((((functionSignature ind s).andThen fun x r => (newLineAndSameIndent ind r).andThen
        fun _ r' => Res.ok x r').andThen fun v r => Res.ok (some v) r).orElse (.ok none s)).andThen
        fun o r => (functionDefinitionF rc ind r).andThen fun d r => Res.ok (Function.mk o d) r) :=
    fun _ => rfl
  rw [unf, unf]
  rcases s_functionSignature hu ind s with ⟨x, r, e1, e2⟩ | ⟨e1, e2⟩ | h | h
  · rcases (g_newLineAndSameIndent hu ind).sim r with ht | ht
    · -- nothing but white space after the signature
      have er : ∀ s r, functionSignature ind s = .ok x r → Tail r →
          Er (((((functionSignature ind s).andThen fun x r => (newLineAndSameIndent ind r).andThen
            fun _ r' => Res.ok x r').andThen fun v r => Res.ok (some v) r).orElse (.ok none s)).andThen
            fun o r => (functionDefinitionF rc ind r).andThen fun d r => Res.ok (Function.mk o d) r) := by
        intro s r e ht
        rw [e, andThen_ok]
        cases e' : newLineAndSameIndent ind r with
        | ok v r' =>
          simp only [andThen_ok, orElse_ok]
          exact er_andThen (f_functionDefinitionF ind r' ((g_newLineAndSameIndent hu ind).tail r ht v r' e'))
        | err =>
          simp only [andThen_err, orElse_err, andThen_ok]
          exact er_andThen (er_definition ind e)
        | panic => exact er_panic
        | div => exact er_div
      exact Er.sim (er _ _ e1 ht) (er _ _ e2 (ht.append hu))
    · refine sim_andThen ?_ fun o r _ => sim_andThen (hd r) fun _ _ _ => sim_ok _ _
      rw [e1, e2, andThen_ok, andThen_ok]
      rcases ht with ⟨v, r', h1, h2⟩ | ⟨h1, h2⟩ | h | h
      · rw [h1, h2]; exact sim_ok _ _
      · rw [h1, h2]; exact sim_ok _ _
      · rcases h with h | h <;> rw [h]
        · exact sim_undefL (.inl rfl)
        · exact sim_undefL (.inr rfl)
      · rcases h with h | h <;> rw [h]
        · exact sim_undefR (.inl rfl)
        · exact sim_undefR (.inr rfl)
  · rw [e1, e2]
    simp only [andThen_err, orElse_err, andThen_ok]
    exact sim_andThen (hd s) fun _ _ _ => sim_ok _ _
  · rcases h with h | h <;> rw [h]
    · exact sim_undefL (.inl rfl)
    · exact sim_undefL (.inr rfl)
  · rcases h with h | h <;> rw [h]
    · exact sim_undefR (.inl rfl)
    · exact sim_undefR (.inr rfl)

theorem s_letEntry : S u (letEntry rc ind) :=
  s_alt
    (s_bind (s_alt (s_variableP hu) (s_alt (s_list hu h ind) (s_alt (s_tuple hu h ind)
      (s_simplifiedRecord hu)))) fun _ =>
      ws_bind (w_gap hu _ _) (fun _ => s_bind (s_char hu (by decide)) fun _ =>
        ws_bind (w_gap hu _ _) (fun i => s_bind (h.s i) fun _ => s_pure _) fun i => f_bind (h.f i))
        fun _ => f_bind (f_char (by decide) (by decide)))
    (s_pmap (s_functionF hu h ind))

omit hu h in
theorem f_letEntry : F (letEntry rc ind) := by f_tac

theorem s_letExpression : S u (letExpression rc ind) :=
  s_bind (s_tag hu (by decide)) fun _ =>
    ws_bind (w_gap hu _ _)
      (fun i => s_bind (s_sepNonemptyList (w_gap hu _ _) (s_letEntry hu h i) (f_letEntry i)) fun _ =>
        s_word hu (by decide) (by f_tac) (fun _ => s_bind (h.s ind) fun _ => s_pure _)
          fun _ => f_bind (h.f ind))
      fun i => f_bind (f_sepNonemptyList (f_letEntry i))

theorem s_caseBranch : S u (caseBranch rc ind) :=
  s_bind (h.s ind) fun _ => s_word hu (by decide) (by f_tac)
    (fun i => s_bind (h.s i) fun _ => s_pure _) fun i => f_bind (h.f i)

theorem s_caseExpression : S u (caseExpression rc ind) :=
  s_bind (s_tag hu (by decide)) fun _ =>
    ws_bind (w_gap hu _ _)
      (fun _ => s_bind (h.s ind) fun _ => s_word hu (by decide) (by f_tac)
        (fun i => s_bind (s_sepNonemptyList (w_gap hu _ _) (s_caseBranch hu h i) (f_bind (h.f i)))
          fun _ => s_pure _)
        fun i => f_bind (f_sepNonemptyList (f_bind (h.f i))))
      fun _ => f_bind (h.f ind)

theorem s_ifExpression : S u (ifExpression rc ind) :=
  s_bind (s_tag hu (by decide)) fun _ =>
    ws_bind (w_gap hu _ _)
      (fun _ => s_bind (h.s ind) fun _ => s_word hu (by decide) (by f_tac)
        (fun i => s_bind (h.s i) fun _ => s_word hu (by decide) (by f_tac)
          (fun i => s_bind (h.s i) fun _ => s_pure _) fun i => f_bind (h.f i))
        fun i => f_bind (h.f i))
      fun _ => f_bind (h.f ind)

omit h in
theorem s_operatorOrAs : S u operatorOrAs := s_pmap (s_alt (s_tag hu (by decide)) (s_operator hu))

omit hu h in
theorem er_operatorOrAs {t : Str} (ht : Tail t) (hg : NoGap t) : Er (operatorOrAs t) := by
  rcases ht.head with rfl | ⟨t', rfl | rfl | rfl | rfl | rfl⟩
  · exact er_err
  · exact absurd rfl (next_cons.1 hg.1).1
  · exact er_err
  · exact er_err
  · exact absurd rfl (next_cons.1 hg.1).2
  · exact absurd rfl (hg.2 t')

theorem s_binary : S u (binary rc ind) :=
  s_bind (s_applicationOrVar hu h ind) fun _ =>
    s_bind (s_opt (s_gap_bind hu (fun _ => s_bind (s_operatorOrAs hu) fun _ =>
      ws_bind (w_multispace hu) (fun _ => s_bind (h.s ind) fun _ => s_pure _) fun _ => f_bind (h.f ind))
      fun _ _ ht hg => er_andThen (er_operatorOrAs ht hg))) fun _ => s_pure _

theorem s_expressionF : S u (expressionF rc ind) :=
  s_alt (s_binary hu h ind) (s_alt (s_letExpression hu h ind) (s_alt (s_caseExpression hu h ind)
    (s_alt (s_ifExpression hu h ind) (s_lambda hu h ind))))

omit hu h in
theorem f_expressionF : F (expressionF rc ind) := by f_tac
end

theorem exS_exprN (n : Nat) : ExS u (exprN n) := by
  have lt : ∀ n ind s v r, exprN n ind s = .ok v r → r.length < s.length := by
    intro n ind s v r e
    rcases exprLe_expression n ind s with h | h
    · rw [h] at e; cases e
    · rw [h] at e
      exact lt_of_ok (fun k => cons_expression k ind) e
  induction n with
  | zero => exact ⟨fun _ _ => sim_undefL (.inl rfl), fun _ _ _ => er_div, lt 0⟩
  | succ n ih => exact ⟨s_expressionF hu ih, f_expressionF, lt (n + 1)⟩

theorem exS_expression : ExS u expression where
  s ind s := by
    have h := (exS_exprN hu ((s ++ u).length + 1)).s ind s
    rw [exprN_eq_expression ind (s := s) (by rw [List.length_append]; omega)] at h
    exact h
  f ind t ht := f_expressionF ind t ht
  lt ind s v r e := lt_of_ok (fun k => cons_expression k ind) e

/-! ### Statements -/

theorem findSubstring_nl {s : Str} :
    findSubstring c!"-}" (s ++ u) = (findSubstring c!"-}" s).map fun x => (x.1, x.2 ++ u) := by
  have nd : '-' ∉ u := hu.not_mem (by decide)
  have none' : ∀ t : Str, '-' ∉ t → findSubstring c!"-}" t = none := by
    intro t ht
    induction t with
    | nil => rfl
    | cons c t ih =>
      have : c ≠ '-' := fun h => ht (by simp [h])
      simp [findSubstring, stripPrefix, this, ih fun h => ht (by simp [h])]
  induction s with
  | nil => rw [List.nil_append, none' u nd]; rfl
  | cons c s ih =>
    rw [List.cons_append, findSubstring, findSubstring, ← List.cons_append, stripPrefix_nl hu (by decide)]
    cases stripPrefix c!"-}" (c :: s) with
    | some r => rfl
    | none =>
      simp only [Option.map_none]
      rw [ih]
      cases findSubstring c!"-}" s <;> rfl

theorem s_comment : S u comment :=
  s_alt (s_bind (s_bind (s_tag hu (by decide)) fun _ => s_reStar hu rfl) fun _ =>
      s_bind (s_index _ _) fun _ => s_pure _)
    (s_pmap (s_bind (s_tag hu (by decide)) fun _ s => by
      unfold takeUntilAndConsume
      rw [findSubstring_nl hu]
      cases findSubstring c!"-}" s with
      | none => exact sim_err
      | some x => exact sim_ok _ _))

theorem s_opExport : S u (delimited (char '(') operator (char ')')) :=
  s_bind (s_char hu (by decide)) fun _ => s_bind (s_operator hu) fun _ =>
    s_bind (s_char hu (by decide)) fun _ => s_pure _
theorem s_functionExport : S u functionExport :=
  s_pmap (s_alt (s_pmap (s_loName hu)) (s_opExport hu))
theorem s_allExport : S u allExport := s_pmap (s_tag hu (by decide))
theorem s_typeExport : S u typeExport :=
  s_bind (s_upName hu) fun _ => s_bind (s_opt (s_bind (s_char hu (by decide)) fun _ =>
    s_bind (s_alt (s_allExport hu) (s_pmap (s_sepNonemptyList (s_tag hu (by decide)).w
      (s_pmap (s_upName hu)) (f_pmap f_upName)))) fun _ =>
      s_bind (s_char hu (by decide)) fun _ => s_pure _)) fun _ => s_pure _
omit hu in
theorem f_export : F (functionExport </> typeExport) := by f_tac
omit hu in
theorem f_exports : F exports := by f_tac
theorem s_exports : S u exports :=
  s_brackets hu (by decide) (by decide) (by decide) 0
    (s_alt (s_allExport hu) (s_pmap (s_sepNonemptyList
      (w_sep ((g_opt (g_spacesAndNewlines hu)).w hu) (s_char hu (by decide))
        (f_char (by decide) (by decide)) ((g_opt (g_spacesAndNewlines hu)).w hu))
      (s_alt (s_functionExport hu) (s_typeExport hu)) f_export)))
    (f_alt (by f_tac) (f_pmap (f_sepNonemptyList f_export))).t

theorem s_moduleName : S u moduleName := s_dotted hu
omit hu in
theorem f_moduleName : F moduleName := f_sepNonemptyList f_upName

/-- The end of a module header. -/
theorem s_exposing {q : ExportSet → Statement} : S u (gap 0 .GT >>= fun _ => tag c!"exposing" >>= fun _ =>
    gap 0 .GT >>= fun _ => exports >>= fun e => pure (q e)) :=
  s_word hu (by decide) (by f_tac) (fun _ => s_bind (s_exports hu) fun _ => s_pure _)
    fun _ => f_bind f_exports

theorem s_moduleDeclaration : S u moduleDeclaration :=
  s_bind (s_tag hu (by decide)) fun _ => ws_bind (w_gap hu _ _)
    (fun _ => s_bind (s_moduleName hu) fun _ => s_exposing hu) fun _ => f_bind f_moduleName

theorem s_portModuleDeclaration : S u portModuleDeclaration :=
  s_bind (s_tag hu (by decide)) fun _ => s_word hu (by decide) (by f_tac)
    (fun _ => s_bind (s_moduleName hu) fun _ => s_exposing hu) fun _ => f_bind f_moduleName

theorem s_effectField : S u effectField :=
  s_bind (s_loName hu) fun _ => s_bind (s_opt (s_spaces hu)) fun _ =>
    s_bind (s_char hu (by decide)) fun _ => s_bind (s_opt (s_spaces hu)) fun _ =>
      s_bind (s_upName hu) fun _ => s_pure _

theorem s_effectModuleDeclaration : S u effectModuleDeclaration :=
  s_bind (s_tag hu (by decide)) fun _ => s_word hu (by decide) (by f_tac)
    (fun _ => s_bind (s_moduleName hu) fun _ => s_word hu (by decide) (by f_tac)
      (fun _ => s_bind (s_bind (s_char hu (by decide)) fun _ =>
        s_bind (s_sepList (s_tag hu (by decide)).w (s_effectField hu) (f_bind f_loName)) fun _ =>
          s_bind (s_char hu (by decide)) fun _ => s_pure _) fun _ => s_exposing hu)
      fun _ => f_bind (f_bind (f_char (by decide) (by decide)))) fun _ => f_bind f_moduleName

theorem s_importStatement : S u importStatement :=
  s_bind (s_tag hu (by decide)) fun _ => s_bind (s_spaces hu) fun _ =>
    s_bind (s_moduleName hu) fun _ =>
      s_bind (s_opt (s_bind (s_bind (s_spaces hu) fun _ => s_bind (s_tag hu (by decide)) fun _ =>
        s_bind (s_spaces hu) fun _ => s_pure _) fun _ => s_upName hu)) fun _ =>
      s_bind (s_opt (s_bind (s_bind (s_spaces hu) fun _ => s_bind (s_tag hu (by decide)) fun _ =>
        s_bind (s_spaces hu) fun _ => s_pure _) fun _ => s_exports hu)) fun _ => s_pure _

theorem s_typeAliasDeclaration : S u typeAliasDeclaration :=
  s_bind (s_tag hu (by decide)) fun _ => s_bind (s_spaces hu) fun _ =>
    s_bind (s_tag hu (by decide)) fun _ => s_bind (s_spaces hu) fun _ =>
      s_bind ((tyS_tyRec hu).ty 0) fun _ => s_bind (s_spaces hu) fun _ =>
        s_bind (s_char hu (by decide)) fun _ =>
          ws_bind (w_gap hu _ _) (fun _ => s_bind ((tyS_tyRec hu).ann 1) fun _ => s_pure _)
            fun _ => f_bind ((tyS_tyRec hu).fann 1)

theorem s_typeDeclaration (ind : Nat) : S u (typeDeclaration ind) :=
  have ft : ∀ i, F (typeConstructor i) := fun i => f_bind (f_sepNonemptyList f_upName)
  s_bind (s_tag hu (by decide)) fun _ => s_bind (s_spaces hu) fun _ =>
    s_bind ((tyS_tyRec hu).ty ind) fun _ =>
      ws_bind (w_gap hu _ _) (fun i => s_bind (s_char hu (by decide)) fun _ =>
        ws_bind (w_gap hu _ _) (fun _ => s_bind (s_sepNonemptyList
          (w_sep (w_gap hu _ _) (s_char hu (by decide)) (f_char (by decide) (by decide)) (s_spaces hu).w)
          (s_typeConstructorF hu (tyS_tyRec hu) i) (ft i)) fun _ => s_pure _)
          fun _ => f_bind (f_sepNonemptyList (ft i)))
        fun _ => f_bind (f_char (by decide) (by decide))

theorem s_portTypeDeclaration : S u portTypeDeclaration :=
  s_bind (s_tag hu (by decide)) fun _ => s_bind (s_spaces hu) fun _ =>
    s_bind (s_loName hu) fun _ => s_bind (s_spaces hu) fun _ => s_bind (s_char hu (by decide)) fun _ =>
      ws_bind (w_gap hu _ _) (fun i => s_bind ((tyS_tyRec hu).ann i) fun _ => s_pure _)
        fun i => f_bind ((tyS_tyRec hu).fann i)

theorem s_portDeclaration : S u portDeclaration :=
  s_bind (s_tag hu (by decide)) fun _ => s_bind (s_spaces hu) fun _ =>
    s_bind (s_loName hu) fun _ => s_bind (s_many0 (s_bind (s_spaces hu) fun _ => s_loName hu)) fun _ =>
      s_bind (s_spaces hu) fun _ => s_bind (s_char hu (by decide)) fun _ =>
        ws_bind (w_gap hu _ _) (fun i => s_bind ((exS_expression hu).s i) fun _ => s_pure _)
          fun i => f_bind ((exS_expression hu).f i)

theorem s_infixDeclaration : S u infixDeclaration :=
  s_bind (s_alt (s_pmap (s_tag hu (by decide))) (s_alt (s_pmap (s_tag hu (by decide)))
    (s_pmap (s_tag hu (by decide))))) fun _ => s_bind (s_spaces hu) fun _ =>
      s_bind (s_mapRes (s_digit hu)) fun _ => s_bind (s_spaces hu) fun _ =>
        s_bind (s_alt (s_loName hu) (s_operator hu)) fun _ => s_pure _

theorem s_statement : S u statement :=
  s_alt (s_portModuleDeclaration hu) (s_alt (s_effectModuleDeclaration hu)
    (s_alt (s_moduleDeclaration hu) (s_alt (s_importStatement hu) (s_alt (s_typeAliasDeclaration hu)
      (s_alt (s_typeDeclaration hu 0) (s_alt (s_portTypeDeclaration hu) (s_alt (s_portDeclaration hu)
        (s_alt (s_pmap (s_functionF hu (exS_expression hu) 0)) (s_alt (s_infixDeclaration hu)
          (s_comment hu))))))))))

theorem multispace0_nl (s : Str) : (∀ c ∈ s, White c) ∨
    ∃ v r, r ≠ [] ∧ multispace0 s = .ok v r ∧ multispace0 (s ++ u) = .ok v (r ++ u) := by
  by_cases h : ∀ c ∈ s, White c
  · exact .inl h
  · right
    obtain ⟨v, r, e⟩ : ∃ v r, multispace0 s = .ok v r := ⟨_, _, rfl⟩
    obtain ⟨rfl, h1, h2⟩ := multispace0_iff.1 e
    cases r with
    | nil => exact absurd (by simpa using h1) h
    | cons c r =>
      exact ⟨v, c :: r, by simp, e, multispace0_iff.2 ⟨by simp, h1,
        next_cons.2 ((next_cons (P := fun c => ¬ White c)).1 h2)⟩⟩

omit hu in
theorem multispace0_white {s : Str} (h : ∀ c ∈ s, White c) : multispace0 s = .ok s [] :=
  multispace0_iff.2 ⟨by simp, h, next_nil _⟩

/-- Statements separated by white space: at the end of the text nothing follows the separator. -/
theorem s_statementList : S u (sepNonemptyList multispace0 statement) := by
  refine s_sepNonemptyList' (fun s => ?_) (s_statement hu)
  rcases multispace0_nl hu s with h | ⟨v, r, -, e1, e2⟩
  · right
    have key : ∀ s : Str, (∀ c ∈ s, White c) → ∀ v r, multispace0 s = .ok v r → Er (statement r) := by
      intro s h v r e
      rw [multispace0_white h] at e
      cases e
      exact er_err
    exact ⟨key s h, key _ (List.forall_mem_append.2 ⟨h, hu.whites⟩)⟩
  · left
    rw [e1, e2]
    exact sim_ok _ _

/-- A newline and white space after a list of statements are left unread if anything is. -/
theorem statements_nl (s : Str) :
    (statements s = .err ∧ statements (s ++ u) = .err) ∨ (∃ v, statements s = .ok v [] ∧ statements (s ++ u) = .ok v []) ∨
    ∃ v c r, statements s = .ok v (c :: r) ∧ statements (s ++ u) = .ok v (c :: r ++ u) := by
  have unf : ∀ s, statements s = ((multispace0 s).andThen fun _ r =>
      (sepNonemptyList multispace0 statement r).andThen fun v r' =>
        (multispace0 r').andThen fun _ r'' => .ok v r'') := fun _ => rfl
  have tot : ∀ r, ¬ Undef (sepNonemptyList multispace0 statement r) := by
    intro r h
    rcases err_or_ok (fun k => cons_sepNonemptyList (good_multispace0 k) (cons_statement k).good) r
      with e | ⟨v, r', e, -⟩ <;> rw [e] at h <;> rcases h with h | h <;> cases h
  rw [unf, unf]
  rcases multispace0_nl hu s with h | ⟨v, r, -, e1, e2⟩
  · rw [multispace0_white h, multispace0_white (List.forall_mem_append.2 ⟨h, hu.whites⟩)]
    exact .inl ⟨rfl, rfl⟩
  · rw [e1, e2]
    simp only [andThen_ok]
    rcases s_statementList hu r with ⟨x, r2, e1, e2⟩ | ⟨e1, e2⟩ | h | h
    · rw [e1, e2]
      simp only [andThen_ok]
      rcases multispace0_nl hu r2 with h | ⟨v, r3, h, e1, e2⟩
      · rw [multispace0_white h, multispace0_white (List.forall_mem_append.2 ⟨h, hu.whites⟩)]
        exact .inr (.inl ⟨x, rfl, rfl⟩)
      · rw [e1, e2]
        cases r3 with
        | nil => exact absurd rfl h
        | cons c r3 => exact .inr (.inr ⟨x, c, r3, rfl, rfl⟩)
    · rw [e1, e2]
      exact .inl ⟨rfl, rfl⟩
    · exact absurd h (tot r)
    · exact absurd h (tot _)

/-- A newline and white space after a file are irrelevant. -/
theorem file_nl (s : Str) : file (s ++ u) = file s := by
  have unf : ∀ s, file s = ((statements s).andThen fun v r => (eof r).andThen fun _ r' => .ok v r') := fun _ => rfl
  rw [unf, unf]
  rcases statements_nl hu s with ⟨h1, h2⟩ | ⟨v, h1, h2⟩ | ⟨v, c, r, h1, h2⟩ <;> rw [h1, h2]
  rfl

end
end ElmParser
