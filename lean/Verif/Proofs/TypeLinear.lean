import Verif.Proofs.LinearFile

/-! Types without parentheses: no place is read twice.

The first part repeats the counting of Proofs/Linear.lean with calls of `type_` in place of calls of `expression`. -/
namespace ElmParser
namespace Trace
namespace TyLin
open Spec

@[inherit_doc] local infixr:20 " </> " => alt

variable {α β γ δ : Type}


/-- Every call is charged to a place of the text read: `a` places at the start are not charged. -/
def Clean (a : Nat) (s : Str) (x : Res α × List Event) : Prop :=
  types x + a ≤ s.length + 1 ∧ ∀ v r, x.1 = .ok v r → types x + a + r.length ≤ s.length

/-- The same, but the parser may have read more than it consumed, and then nothing can follow. -/
def Once (a : Nat) (s : Str) (x : Res α × List Event) : Prop :=
  types x + a ≤ s.length + 1 ∧ ∀ v r, x.1 = .ok v r → types x + a + r.length ≤ s.length ∨ Dead r

theorem Clean.once {a : Nat} {s : Str} {x : Res α × List Event} (h : Clean a s x) : Once a s x :=
  ⟨h.1, fun v r e => .inl (h.2 v r e)⟩

theorem types_free (p : Parser α) (s : Str) : types (free p s) = 0 := rfl

theorem types_andThen_ok {x : Res α × List Event} {f : α → TP β} {v : α} {r : Str} (h : x.1 = .ok v r) :
    types (andThen x f) = types x + types (f v r) := by
  obtain ⟨y, l⟩ := x
  cases h
  exact List.countP_append

theorem types_andThen_ne {x : Res α × List Event} {f : α → TP β} (h : ∀ v r, x.1 ≠ .ok v r) :
    types (andThen x f) = types x ∧ ∀ w q, (andThen x f).1 ≠ .ok w q := by
  obtain ⟨y, l⟩ := x
  cases y with
  | ok v r => exact absurd rfl (h v r)
  | err => exact ⟨rfl, by intro _ _ e; cases e⟩
  | panic => exact ⟨rfl, by intro _ _ e; cases e⟩
  | div => exact ⟨rfl, by intro _ _ e; cases e⟩

/-- Something after a parser that may have given up. -/
theorem once_bind {a : Nat} {p : TP α} {f : α → TP β} {s : Str} (h : Once a s (p s))
    (h1 : ∀ v r, (p s).1 = .ok v r → Once 0 r (f v r))
    (h2 : ∀ v r, (p s).1 = .ok v r → Dead r → types (f v r) = 0 ∧ ∀ w q, (f v r).1 = .ok w q → Dead q) :
    Once a s ((p >>= f) s) := by
  show Once a s (andThen (p s) f)
  rcases ok_or (p s) with ⟨v, r, e⟩ | e
  · have ec := types_andThen_ok (f := f) e
    have ef := andThen_fst (f := f) e
    rcases h.2 v r e with hc | hd
    · obtain ⟨k1, k2⟩ := h1 v r e
      refine ⟨by omega, fun w q eq => ?_⟩
      rw [ef] at eq
      rcases k2 w q eq with k | k
      · exact .inl (by omega)
      · exact .inr k
    · obtain ⟨k1, k2⟩ := h2 v r e hd
      have := h.1
      refine ⟨by omega, fun w q eq => ?_⟩
      rw [ef] at eq
      exact .inr (k2 w q eq)
  · obtain ⟨ec, ef⟩ := types_andThen_ne (f := f) e
    exact ⟨by rw [ec]; exact h.1, fun w q eq => absurd eq (ef w q)⟩

/-- Something after a parser without calls. -/
theorem once_free {a b : Nat} {p : Parser α} {f : α → TP β} {s : Str} (ha : a ≤ s.length + 1)
    (h : ∀ v r, p s = .ok v r → r.length + a ≤ s.length + b ∧ Once b r (f v r)) : Once a s ((free p >>= f) s) := by
  show Once a s (andThen (p s, []) f)
  rcases ok_or (p s, ([] : List Event)) with ⟨v, r, e⟩ | e
  · have ec := types_andThen_ok (f := f) e
    have ef := andThen_fst (f := f) e
    have e0 : types (p s, ([] : List Event)) = 0 := rfl
    obtain ⟨k, k1, k2⟩ := h v r e
    refine ⟨by omega, fun w q eq => ?_⟩
    rw [ef] at eq
    rcases k2 w q eq with k | k
    · exact .inl (by omega)
    · exact .inr k
  · obtain ⟨ec, ef⟩ := types_andThen_ne (f := f) e
    have e0 : types (p s, ([] : List Event)) = 0 := rfl
    exact ⟨by omega, fun w q eq => absurd eq (ef w q)⟩

theorem once_pure (s : Str) (v : α) : Once 0 s ((pure v : TP α) s) :=
  ⟨Nat.zero_le _, fun w r e => by cases e; exact .inl (by show 0 + 0 + s.length ≤ _; omega)⟩

theorem quiet_pure (r : Str) (v : α) (h : Dead r) :
    types ((pure v : TP α) r) = 0 ∧ ∀ w q, ((pure v : TP α) r).1 = .ok w q → Dead q :=
  ⟨rfl, fun w q e => by cases e; exact h⟩

/-- A parser without calls that fails, whatever follows. -/
theorem stopped {p : Parser α} {f : α → TP β} {r : Str} (h : ∀ v t, p r ≠ .ok v t) :
    types ((free p >>= f) r) = 0 ∧ ∀ w q, ((free p >>= f) r).1 ≠ .ok w q := by
  obtain ⟨ec, ef⟩ := types_andThen_ne (x := (p r, [])) (f := f) h
  exact ⟨ec, ef⟩

/-- Steps without calls after which something fails. -/
theorem stops {p : Parser α} {f : α → TP β} {r : Str}
    (h : ∀ v t, p r = .ok v t → types (f v t) = 0 ∧ ∀ w q, (f v t).1 ≠ .ok w q) :
    types ((free p >>= f) r) = 0 ∧ ∀ w q, ((free p >>= f) r).1 ≠ .ok w q := by
  rcases ok_or (p r, ([] : List Event)) with ⟨v, t, e⟩ | e
  · have ec := types_andThen_ok (f := f) e
    have ef := andThen_fst (f := f) e
    obtain ⟨k1, k2⟩ := h v t e
    refine ⟨?_, fun w q eq => k2 w q ?_⟩
    · show types (andThen (p r, []) f) = 0
      rw [ec, k1]; rfl
    · rw [← ef]; exact eq
  · exact stopped e

/-! ### Loops -/

/-- What is needed of the separators and items of a list: `D` says that the list is abandoned. -/
structure Items (sep : Parser β) (p : TP α) (D : Str → Prop) (s : Str) : Prop where
  sepCons : ∀ k, Cons k sep
  suffix : ∀ t v r, (p t).1 = .ok v r → r <:+ t ∧ r.length < t.length
  once : ∀ t, t <:+ s → types (p t) ≤ t.length + 1 ∧
    ∀ v r, (p t).1 = .ok v r → types (p t) + r.length ≤ t.length ∨ (sep r = .err ∧ D r)
  err : ∀ t u x, t <:+ s → sep t = .ok x u → (p u).1 = .err → types (p u) = 0 ∨ D t

/-- The calls of a list are charged to the places it reads. -/
def Counted (n : Nat) (D : Str → Prop) (x : Res α × List Event) : Prop :=
  types x ≤ n ∧ ∀ v r, x.1 = .ok v r → types x + r.length ≤ n ∨ D r

theorem types_append (x : Res α) (k l : List Event) : types (x, k ++ l) = types (x, k) + types (x, l) := List.countP_append
theorem types_same (x : Res α) (y : Res β) (k : List Event) : types (x, k) = types (y, k) := rfl
theorem types_nil (x : Res α) : types (x, []) = 0 := rfl

theorem counted_pure {n : Nat} {D : Str → Prop} {p : TP α} (f : α → β) {s : Str} (h : Counted n D (p s)) :
    Counted n D ((p >>= fun v => pure (f v)) s) := by
  show Counted n D (andThen (p s) _)
  rcases ok_or (p s) with ⟨v, r, e⟩ | e
  · have ec : types (andThen (p s) fun v => pure (f v)) = types (p s) := types_andThen_ok (f := fun v => pure (f v)) e
    have ef := andThen_fst (f := fun v => (pure (f v) : TP β)) e
    refine ⟨by rw [ec]; exact h.1, fun w q eq => ?_⟩
    rw [ef] at eq
    cases eq
    rw [ec]
    exact h.2 v r e
  · obtain ⟨ec, ef⟩ := types_andThen_ne (f := fun v => (pure (f v) : TP β)) e
    exact ⟨by rw [ec]; exact h.1, fun w q eq => absurd eq (ef w q)⟩

/-- Nothing more after an abandoned item. -/
theorem sepLoop_stop {sep : Parser β} {p : TP α} {r : Str} (h : sep r = .err) (n : Nat) (v : α) :
    types ((do let vs ← sepLoop (free sep) p n; pure (v :: vs) : TP (List α)) r) = 0 ∧
      ∀ w q, ((do let vs ← sepLoop (free sep) p n; pure (v :: vs) : TP (List α)) r).1 = .ok w q → q = r := by
  show types (andThen (sepLoop (free sep) p n r) _) = 0 ∧ ∀ w q, (andThen (sepLoop (free sep) p n r) _).1 = .ok w q → _
  cases n with
  | zero => exact ⟨rfl, fun w q e => by cases e⟩
  | succ n =>
    simp only [sepLoop, free, h]
    exact ⟨rfl, fun w q e => by cases e; rfl⟩

/-- An item and what follows it. -/
theorem counted_item {sep : Parser β} {p : TP α} {D : Str → Prop} {s t : Str} (h : Items sep p D s) {n : Nat}
    (ih : ∀ t, t <:+ s → Counted t.length D (sepLoop (free sep) p n t)) (ht : t <:+ s) {v : α} {r : Str} {l : List Event}
    (e : p t = (.ok v r, l)) : Counted (t.length + 1) D
      (andThen (.ok v r, l) fun v => do let vs ← sepLoop (free sep) p n; pure (v :: vs)) := by
  have h1 := h.once t ht
  have h3 := h.suffix t
  rw [e] at h1 h3
  obtain ⟨hr, hrl⟩ := h3 v r rfl
  have k := counted_pure (fun vs => v :: vs) (ih r (hr.trans ht))
  have ec : ∀ f : α → TP (List α), types (andThen (.ok v r, l) f) = types ((.ok v r : Res α), l) + types (f v r) :=
    fun f => types_andThen_ok (x := (.ok v r, l)) rfl
  rcases h1.2 v r rfl with h1 | ⟨h1', h1''⟩
  · refine ⟨by rw [ec]; have := k.1; omega, fun w q e => ?_⟩
    rcases k.2 w q e with k | k
    · exact .inl (by rw [ec]; omega)
    · exact .inr k
  · have k1 := sepLoop_stop (p := p) h1' n v
    refine ⟨by rw [ec, k1.1]; have := h1.1; omega, fun w q e => ?_⟩
    have := k1.2 w q e
    subst this
    exact .inr h1''

theorem counted_sepLoop {sep : Parser β} {p : TP α} {D : Str → Prop} {s : Str} (h : Items sep p D s) (n : Nat) :
    ∀ t, t <:+ s → Counted t.length D (sepLoop (free sep) p n t) := by
  induction n with
  | zero => exact fun t _ => ⟨Nat.zero_le _, fun _ _ e => by cases e⟩
  | succ n ih =>
    intro t ht
    simp only [sepLoop, free]
    cases hp : sep t with
    | err => exact ⟨Nat.zero_le _, fun v r e => by cases e; exact .inl (by show 0 + t.length ≤ _; omega)⟩
    | panic => exact ⟨Nat.zero_le _, fun _ _ e => by cases e⟩
    | div => exact ⟨Nat.zero_le _, fun _ _ e => by cases e⟩
    | ok x u =>
      have hu := suffix_of_ok (fun k => (h.sepCons k).good) hp
      have hl := lt_of_ok h.sepCons hp
      simp only
      rw [if_neg (by omega)]
      have h1 := h.once u (hu.trans ht)
      have h2 := h.err t u x ht hp
      have h3 := h.suffix u
      have h4 := @counted_item _ _ sep p D s u h n ih (hu.trans ht)
      cases hq : p u with
      | mk y l =>
        rw [hq] at h1 h2 h3
        have en : ∀ (z : Res (List α)), types (z, [] ++ l) = types (y, l) := fun z => rfl
        cases y with
        | err =>
          simp only
          refine ⟨by rw [en]; have := h1.1; omega, fun v r e => ?_⟩
          cases e
          rcases h2 rfl with h2 | h2
          · exact .inl (by rw [en]; omega)
          · exact .inr h2
        | panic => exact ⟨by rw [en]; have := h1.1; omega, fun v r e => by cases e⟩
        | div => exact ⟨by rw [en]; have := h1.1; omega, fun v r e => by cases e⟩
        | ok v r =>
          simp only
          obtain ⟨hr, hrl⟩ := h3 v r rfl
          rw [if_neg (by omega)]
          have k := h4 hq
          refine ⟨Nat.le_trans k.1 (by omega), fun w q e => ?_⟩
          rcases k.2 w q e with k | k
          · exact .inl (Nat.le_trans k (by omega))
          · exact .inr k

/-- A list, without what follows it. -/
theorem counted_sepList {sep : Parser β} {p : TP α} {D : Str → Prop} {s : Str} (h : Items sep p D s)
    (hf : (p s).1 = .err → types (p s) ≤ 1 ∨ D s) : Counted (s.length + 1) D (sepList (free sep) p s) := by
  unfold sepList
  have h1 := h.once s (List.suffix_refl s)
  have h3 := h.suffix s
  have h4 := fun n => @counted_item _ _ sep p D s s h n (counted_sepLoop h n) (List.suffix_refl s)
  cases hq : p s with
  | mk y l =>
    rw [hq] at h1 h3 hf
    have en : ∀ (z : Res (List α)), types (z, l) = types (y, l) := fun z => rfl
    cases y with
    | err =>
      simp only
      refine ⟨by rw [en]; exact h1.1, fun v r e => ?_⟩
      cases e
      rcases hf rfl with hf | hf
      · exact .inl (by rw [en]; omega)
      · exact .inr hf
    | panic => exact ⟨by rw [en]; exact h1.1, fun v r e => by cases e⟩
    | div => exact ⟨by rw [en]; exact h1.1, fun v r e => by cases e⟩
    | ok v r =>
      simp only
      obtain ⟨hr, hrl⟩ := h3 v r rfl
      rw [if_neg (by omega)]
      exact h4 _ hq


/-! ### Brackets -/

theorem clean_pmap {a : Nat} {p : TP α} (f : α → β) {s : Str} (h : Clean a s (p s)) : Clean a s (pmap p f s) := by
  show Clean a s (andThen (p s) fun v => pure (f v))
  rcases ok_or (p s) with ⟨v, r, e⟩ | e
  · have ec : types (andThen (p s) fun v => pure (f v)) = types (p s) := types_andThen_ok (f := fun v => pure (f v)) e
    have ef := andThen_fst (f := fun v => (pure (f v) : TP β)) e
    refine ⟨by rw [ec]; exact h.1, fun w q eq => ?_⟩
    rw [ef] at eq
    cases eq
    rw [ec]
    exact h.2 v r e
  · obtain ⟨ec, ef⟩ := types_andThen_ne (f := fun v => (pure (f v) : TP β)) e
    exact ⟨by rw [ec]; exact h.1, fun w q eq => absurd eq (ef w q)⟩

theorem clean_alt {a : Nat} {p q : TP α} {s : Str} (hp : Clean a s (p s)) (hq : Clean a s (q s))
    (h : (p s).1 = .err → 0 < types (p s) → types (q s) = 0 ∧ ∀ v r, (q s).1 ≠ .ok v r) : Clean a s ((p </> q) s) := by
  unfold alt
  cases e : p s with
  | mk x n =>
    rw [e] at hp h
    cases x with
    | ok v r => exact hp
    | panic => exact hp
    | div => exact hp
    | err =>
      have ec : types ((q s).1, n ++ (q s).2) = types ((.err : Res α), n) + types (q s) := List.countP_append
      simp only
      by_cases h0 : types ((.err : Res α), n) = 0
      · refine ⟨by rw [ec, h0, Nat.zero_add]; exact hq.1, fun v r eq => ?_⟩
        rw [ec, h0, Nat.zero_add]
        exact hq.2 v r eq
      · obtain ⟨k1, k2⟩ := h rfl (Nat.pos_of_ne_zero h0)
        exact ⟨by rw [ec, k1]; exact hp.1, fun v r eq => absurd eq (k2 v r)⟩

theorem clean_free {p : Parser α} (hp : ∀ k, Cons k p) (s : Str) : Clean 1 s (free p s) :=
  ⟨by show 0 + 1 ≤ _; omega, fun v r e => by have := lt_of_ok hp e; show 0 + 1 + _ ≤ _; omega⟩

/-- What stands between brackets. -/
theorem clean_delimited {O : Parser α} {Q : TP β} {C : Parser γ} {D : Str → Prop} {s : Str} (hO : ∀ k, Cons k O)
    (hC : ∀ k, Cons k C) (hD : ∀ r, D r → C r = .err) (h : ∀ v t, O s = .ok v t → Counted (t.length + 1) D (Q t)) :
    Clean 1 s (delimited (free O) Q (free C) s) := by
  have close : ∀ (v : β) (r : Str), types ((do let _ ← free C; pure v : TP β) r) = 0 ∧
      ∀ w q, ((do let _ ← free C; pure v : TP β) r).1 = .ok w q → q.length < r.length ∧ ¬ D r := by
    intro v r
    show types (andThen (C r, []) _) = 0 ∧ ∀ w q, (andThen (C r, []) _).1 = .ok w q → _
    cases e : C r with
    | ok x t =>
      have := lt_of_ok hC e
      refine ⟨rfl, fun w q eq => ?_⟩
      cases eq
      refine ⟨this, fun hd => ?_⟩
      rw [hD r hd] at e
      cases e
    | err => exact ⟨rfl, fun w q eq => by cases eq⟩
    | panic => exact ⟨rfl, fun w q eq => by cases eq⟩
    | div => exact ⟨rfl, fun w q eq => by cases eq⟩
  show Clean 1 s (andThen (O s, []) fun _ => do let v ← Q; let _ ← free C; pure v)
  cases eO : O s with
  | err => exact ⟨by show 0 + 1 ≤ _; omega, fun v r e => by cases e⟩
  | panic => exact ⟨by show 0 + 1 ≤ _; omega, fun v r e => by cases e⟩
  | div => exact ⟨by show 0 + 1 ≤ _; omega, fun v r e => by cases e⟩
  | ok x t =>
    have hl := lt_of_ok hO eO
    have hq := h x t eO
    have en : types (andThen (.ok x t, []) fun _ => do let v ← Q; let _ ← free C; pure v) =
        types (andThen (Q t) fun v => do let _ ← free C; pure v) :=
      (types_andThen_ok (x := (.ok x t, [])) (f := fun _ => do let v ← Q; let _ ← free C; pure v) rfl).trans
        (Nat.zero_add _)
    have ex : (andThen (.ok x t, []) fun _ => do let v ← Q; let _ ← free C; pure v).1 =
        (andThen (Q t) fun v => do let _ ← free C; pure v).1 := rfl
    rcases ok_or (Q t) with ⟨v, r, e⟩ | e
    · have ec := types_andThen_ok (f := fun v => (do let _ ← free C; pure v : TP β)) e
      have ef := andThen_fst (f := fun v => (do let _ ← free C; pure v : TP β)) e
      obtain ⟨k1, k2⟩ := close v r
      rw [k1] at ec
      refine ⟨by rw [en, ec]; have := hq.1; omega, fun w q eq => ?_⟩
      rw [ex, ef] at eq
      obtain ⟨k3, k4⟩ := k2 w q eq
      rcases hq.2 v r e with hq | hq
      · rw [en, ec]; omega
      · exact absurd hq k4
    · obtain ⟨ec, ef⟩ := types_andThen_ne (f := fun v => (do let _ ← free C; pure v : TP β)) e
      refine ⟨by rw [en, ec]; have := hq.1; omega, fun w q eq => ?_⟩
      rw [ex] at eq
      exact absurd eq (ef w q)


/-- Items of a list between brackets. -/
theorem items_closed {sep : Parser β} {p : TP α} {C : Parser γ} {s : Str} (hs : ∀ k, Cons k sep)
    (hp : ∀ t v r, (p t).1 = .ok v r → r <:+ t ∧ r.length < t.length) (h : ∀ t, t <:+ s → Once 0 t (p t))
    (hd : ∀ r, Dead r → sep r = .err ∧ C r = .err) (hc : ∀ t x u, sep t = .ok x u → C t = .err) :
    Items sep p (fun r => C r = .err) s where
  sepCons := hs
  suffix := hp
  once t ht := ⟨(h t ht).1, fun v r e => ((h t ht).2 v r e).imp id (hd r)⟩
  err t u x _ e _ := .inr (hc t x u e)


theorem types_alt_zero {p q : TP α} {s : Str} (hp : types (p s) = 0) (hq : types (q s) = 0) : types ((p </> q) s) = 0 := by
  unfold alt
  cases e : p s with
  | mk x n =>
    rw [e] at hp
    cases x with
    | err => exact (List.countP_append ..).trans (by have h : List.countP _ n = 0 := hp; have h' : List.countP _ (q s).2 = 0 := hq; rw [h, h'])
    | ok _ _ => exact hp
    | panic => exact hp
    | div => exact hp

theorem types_pmap (p : TP α) (f : α → β) (s : Str) : types (pmap p f s) = types (p s) := by
  show types (andThen (p s) _) = _
  rcases ok_or (p s) with ⟨v, r, e⟩ | e
  · exact types_andThen_ok (f := fun v => (pure (f v) : TP β)) e
  · exact (types_andThen_ne (f := fun v => (pure (f v) : TP β)) e).1

theorem types_bind_err {p : Parser α} {f : α → TP β} {s : Str} (h : p s = .err) :
    types ((free p >>= f) s) = 0 ∧ ((free p >>= f) s).1 = .err := by
  rw [quiet_bind h]; exact ⟨rfl, rfl⟩

theorem bind_types_pos {p : Parser α} {f : α → TP β} {s : Str} (h : 0 < types ((free p >>= f) s)) :
    ∃ v r, p s = .ok v r ∧ 0 < types (f v r) := by
  rcases ok_or (p s, ([] : List Event)) with ⟨v, r, e⟩ | e
  · refine ⟨v, r, e, ?_⟩
    have := types_andThen_ok (f := f) e
    have h : 0 < types (andThen (p s, []) f) := h
    rw [this] at h
    have h0 : types (p s, ([] : List Event)) = 0 := rfl
    omega
  · have h : 0 < types (andThen (p s, []) f) := h
    rw [(types_andThen_ne e).1] at h
    exact absurd h (Nat.lt_irrefl 0)

theorem counted_free {p : Parser α} {f : α → TP β} {D : Str → Prop} {s : Str}
    (h : ∀ v r, p s = .ok v r → r.length ≤ s.length ∧ Counted (r.length + 1) D (f v r)) :
    Counted (s.length + 1) D ((free p >>= f) s) := by
  show Counted _ D (andThen (p s, []) f)
  rcases ok_or (p s, ([] : List Event)) with ⟨v, r, e⟩ | e
  · have ec := types_andThen_ok (f := f) e
    have ef := andThen_fst (f := f) e
    have e0 : types (p s, ([] : List Event)) = 0 := rfl
    obtain ⟨k, k1, k2⟩ := h v r e
    refine ⟨by omega, fun w q eq => ?_⟩
    rw [ef] at eq
    rcases k2 w q eq with k | k
    · exact .inl (by omega)
    · exact .inr k
  · obtain ⟨ec, ef⟩ := types_andThen_ne (f := f) e
    have e0 : types (p s, ([] : List Event)) = 0 := rfl
    exact ⟨by omega, fun w q eq => absurd eq (ef w q)⟩

theorem types_bind_free {p : TP α} {f : α → TP β} {s : Str} (h : ∀ v r, types (f v r) = 0) :
    types ((p >>= f) s) = types (p s) := by
  show types (andThen (p s) f) = _
  rcases ok_or (p s) with ⟨v, r, e⟩ | e
  · rw [types_andThen_ok e, h v r, Nat.add_zero]
  · exact (types_andThen_ne e).1

theorem types_closing (C : Parser β) (v : α) (q : Str) : types ((free C >>= fun _ => (pure v : TP α)) q) = 0 := by
  show types (andThen (C q, []) _) = 0
  cases C q <;> rfl


/-- The parser calls something or succeeds. -/
def Alive (x : Res α × List Event) : Prop := 0 < types x ∨ ∃ v r, x.1 = .ok v r

theorem bind_alive {p : Parser α} {f : α → TP β} {s : Str} (h : Alive ((free p >>= f) s)) :
    ∃ v r, p s = .ok v r ∧ Alive (f v r) := by
  cases e : p s with
  | ok v r =>
    rw [bind_ok_eq e] at h
    exact ⟨v, r, rfl, h⟩
  | err =>
    rw [quiet_bind e] at h
    rcases h with h | ⟨v, r, h⟩
    · exact absurd h (Nat.lt_irrefl 0)
    · cases h
  | panic =>
    have : (free p >>= f) s = (.panic, []) := by
      show andThen (p s, []) f = _
      rw [e]; rfl
    rw [this] at h
    rcases h with h | ⟨v, r, h⟩
    · exact absurd h (Nat.lt_irrefl 0)
    · cases h
  | div =>
    have : (free p >>= f) s = (.div, []) := by
      show andThen (p s, []) f = _
      rw [e]; rfl
    rw [this] at h
    rcases h with h | ⟨v, r, h⟩
    · exact absurd h (Nat.lt_irrefl 0)
    · cases h

theorem alive_sepList {sep : TP β} {p : TP α} {s : Str} (h : 0 < types (sepList sep p s)) : Alive (p s) := by
  unfold sepList at h
  cases e : p s with
  | mk x n =>
    rw [e] at h
    cases x with
    | ok v r => exact .inr ⟨v, r, rfl⟩
    | err => exact .inl h
    | panic => exact .inl h
    | div => exact .inl h

/-- No calls and no result. -/
def None (x : Res α × List Event) : Prop := types x = 0 ∧ ∀ v r, x.1 ≠ .ok v r

theorem none_err {x : Res α × List Event} (h : x = (.err, [])) : None x := by
  rw [h]; exact ⟨rfl, fun v r e => by cases e⟩
theorem none_quiet {x : Res α × List Event} (h : types x = 0 ∧ x.1 = .err) : None x :=
  ⟨h.1, fun v r e => by rw [h.2] at e; cases e⟩
theorem none_alt {p q : TP α} {s : Str} (hp : None (p s)) (hq : None (q s)) : None ((p </> q) s) := by
  refine ⟨types_alt_zero hp.1 hq.1, ?_⟩
  unfold alt
  cases e : p s with
  | mk x n =>
    rw [e] at hp
    cases x with
    | err => exact hq.2
    | ok v r => exact absurd rfl (hp.2 v r)
    | panic => exact hp.2
    | div => exact hp.2

theorem none_bind {p : Parser α} {f : α → TP β} {s : Str} (h : p s = .err) : None ((free p >>= f) s) := none_err (quiet_bind h)

theorem None.once {x : Res α × List Event} (h : None x) (s : Str) : Once 1 s x :=
  ⟨by rw [h.1]; omega, fun v r e => absurd e (h.2 v r)⟩

/-! ### Parsers that may give up, with `D` for the texts at which they do -/

/-- The calls are charged to the places read, or the parser has given up at a text in `D`. -/
def Tidy (D : Str → Prop) (a : Nat) (s : Str) (x : Res α × List Event) : Prop :=
  types x + a ≤ s.length + 1 ∧ ∀ v r, x.1 = .ok v r → types x + a + r.length ≤ s.length ∨ D r

theorem Clean.tidy {D : Str → Prop} {a : Nat} {s : Str} {x : Res α × List Event} (h : Clean a s x) : Tidy D a s x :=
  ⟨h.1, fun v r e => .inl (h.2 v r e)⟩

theorem None.clean {x : Res α × List Event} (h : None x) (s : Str) : Clean 1 s x :=
  ⟨by rw [h.1]; omega, fun v r e => absurd e (h.2 v r)⟩

theorem tidy_alt {D : Str → Prop} {a : Nat} {p q : TP α} {s : Str} (hp : Tidy D a s (p s)) (hq : Tidy D a s (q s))
    (h : (p s).1 = .err → 0 < types (p s) → types (q s) = 0 ∧ ∀ v r, (q s).1 ≠ .ok v r) : Tidy D a s ((p </> q) s) := by
  unfold alt
  cases e : p s with
  | mk x n =>
    rw [e] at hp h
    cases x with
    | ok v r => exact hp
    | panic => exact hp
    | div => exact hp
    | err =>
      have ec : types ((q s).1, n ++ (q s).2) = types ((.err : Res α), n) + types (q s) := List.countP_append
      simp only
      by_cases h0 : types ((.err : Res α), n) = 0
      · refine ⟨by rw [ec, h0, Nat.zero_add]; exact hq.1, fun v r eq => ?_⟩
        rw [ec, h0, Nat.zero_add]
        exact hq.2 v r eq
      · obtain ⟨k1, k2⟩ := h rfl (Nat.pos_of_ne_zero h0)
        exact ⟨by rw [ec, k1]; exact hp.1, fun v r eq => absurd eq (k2 v r)⟩

/-- A step that reads nothing more. -/
theorem tidy_keep {D : Str → Prop} {a : Nat} {p : TP α} {f : α → TP β} {s : Str} (h : Tidy D a s (p s))
    (hf : ∀ v r, types (f v r) = 0 ∧ ∀ w q, (f v r).1 = .ok w q → q = r) : Tidy D a s ((p >>= f) s) := by
  show Tidy D a s (andThen (p s) f)
  rcases ok_or (p s) with ⟨v, r, e⟩ | e
  · have ec := types_andThen_ok (f := f) e
    have ef := andThen_fst (f := f) e
    obtain ⟨k1, k2⟩ := hf v r
    rw [k1, Nat.add_zero] at ec
    refine ⟨by rw [ec]; exact h.1, fun w q eq => ?_⟩
    rw [ef] at eq
    rw [ec, k2 w q eq]
    exact h.2 v r e
  · obtain ⟨ec, ef⟩ := types_andThen_ne (f := f) e
    exact ⟨by rw [ec]; exact h.1, fun w q eq => absurd eq (ef w q)⟩

/-- A step without calls at the end of what is between brackets. -/
theorem counted_then {n : Nat} {D D' : Str → Prop} {p : TP α} {G : Parser β} (g : α → γ) {s : Str} (hG : ∀ k, Good k G)
    (h : Counted n D (p s)) (hD : ∀ r i q, D r → G r = .ok i q → D' q) :
    Counted n D' ((p >>= fun v => free G >>= fun _ => pure (g v)) s) := by
  show Counted n D' (andThen (p s) _)
  rcases ok_or (p s) with ⟨v, r, e⟩ | e
  · have ec := types_andThen_ok (f := fun v => (free G >>= fun _ => pure (g v) : TP γ)) e
    have ef := andThen_fst (f := fun v => (free G >>= fun _ => pure (g v) : TP γ)) e
    rw [types_closing, Nat.add_zero] at ec
    refine ⟨by rw [ec]; exact h.1, fun w q eq => ?_⟩
    rw [ef] at eq
    have eq : (andThen (G r, []) fun _ => (pure (g v) : TP γ)).1 = .ok w q := eq
    cases eG : G r with
    | ok i t =>
      rw [eG] at eq
      cases eq
      have := (suffix_of_ok hG eG).length_le
      rw [ec]
      rcases h.2 v r e with h | h
      · exact .inl (by omega)
      · exact .inr (hD _ _ _ h eG)
    | err => rw [eG] at eq; cases eq
    | panic => rw [eG] at eq; cases eq
    | div => rw [eG] at eq; cases eq
  · obtain ⟨ec, ef⟩ := types_andThen_ne (f := fun v => (free G >>= fun _ => pure (g v) : TP γ)) e
    exact ⟨by rw [ec]; exact h.1, fun w q eq => absurd eq (ef w q)⟩

/-- A list with at least one item. -/
theorem tidy_nonempty {sep : Parser β} {p : TP α} {D : Str → Prop} {s : Str} (h : Items sep p D s) :
    Tidy D 0 s (sepNonemptyList (free sep) p s) := by
  unfold sepNonemptyList
  have h1 := h.once s (List.suffix_refl s)
  have h3 := h.suffix s
  have h4 := fun n => @counted_item _ _ sep p D s s h n (counted_sepLoop h n) (List.suffix_refl s)
  cases hq : p s with
  | mk y l =>
    rw [hq] at h1 h3
    cases y with
    | err => exact ⟨h1.1, fun v r e => by cases e⟩
    | panic => exact ⟨h1.1, fun v r e => by cases e⟩
    | div => exact ⟨h1.1, fun v r e => by cases e⟩
    | ok v r =>
      obtain ⟨hr, hrl⟩ := h3 v r rfl
      have k := counted_pure (fun vs => v :: vs) (counted_sepLoop h (r.length + 1) r hr)
      have ec : ∀ f : α → TP (List α), types (andThen (.ok v r, l) f) = types ((.ok v r : Res α), l) + types (f v r) :=
        fun f => types_andThen_ok (x := (.ok v r, l)) rfl
      have ex : ∀ f : α → TP (List α), (andThen (.ok v r, l) f).1 = (f v r).1 := fun f => rfl
      show Tidy D 0 s (andThen (.ok v r, l) _)
      unfold Tidy
      rw [ec, ex, if_neg (by omega)]
      rcases h1.2 v r rfl with h1 | ⟨h1', h1''⟩
      · refine ⟨by have := k.1; omega, fun w q e => ?_⟩
        rcases k.2 w q e with k | k
        · exact .inl (by omega)
        · exact .inr k
      · have k1 := sepLoop_stop (p := p) h1' (r.length + 1) v
        refine ⟨by rw [k1.1]; exact h1.1, fun w q e => ?_⟩
        have := k1.2 w q e
        subst this
        exact .inr h1''

/-- The loop of `many0!`. -/
theorem counted_many0 {p : TP α} {D : Str → Prop} (n : Nat) {s : Str}
    (hs : ∀ t v r, (p t).1 = .ok v r → r <:+ t ∧ r.length < t.length)
    (hc : ∀ t, t <:+ s → types (p t) ≤ t.length ∧ ∀ v r, (p t).1 = .ok v r → types (p t) + r.length ≤ t.length)
    (he : ∀ t, t <:+ s → (p t).1 = .err → 0 < types (p t) → D t) :
    ∀ t, t <:+ s → Counted t.length D (many0Loop p n t) := by
  induction n with
  | zero => exact fun t _ => ⟨Nat.zero_le _, fun _ _ e => by cases e⟩
  | succ n ih =>
    intro t ht
    have h1 := hc t ht
    have h2 := he t ht
    have h3 := hs t
    simp only [many0Loop]
    cases hq : p t with
    | mk y l =>
      rw [hq] at h1 h2 h3
      cases y with
      | err =>
        refine ⟨h1.1, fun v r e => ?_⟩
        cases e
        by_cases h0 : 0 < types ((.err : Res α), l)
        · exact .inr (h2 rfl h0)
        · refine .inl ?_
          show types ((.err : Res α), l) + t.length ≤ _
          omega
      | panic => exact ⟨h1.1, fun v r e => by cases e⟩
      | div => exact ⟨h1.1, fun v r e => by cases e⟩
      | ok v r =>
        obtain ⟨hr, hrl⟩ := h3 v r rfl
        have hne : r ≠ t := by rintro rfl; omega
        simp only [hne, if_false]
        have k := counted_pure (fun vs => v :: vs) (ih r (hr.trans ht))
        have ec : ∀ f : α → TP (List α), types (andThen (.ok v r, l) f) = types ((.ok v r : Res α), l) + types (f v r) :=
          fun f => types_andThen_ok (x := (.ok v r, l)) rfl
        have := h1.2 v r rfl
        refine ⟨by rw [ec]; have := k.1; omega, fun w q e => ?_⟩
        rcases k.2 w q e with k | k
        · exact .inl (by rw [ec]; omega)
        · exact .inr k

/-! ### Types -/

/-- Types of shorter texts are read once. -/
def ShorterT (n : Nat) : Prop := ∀ ind t, t.length < n → '(' ∉ t → Once 0 t (typeAnnotation ind t)

theorem noParen_suffix {s t : Str} (h : '(' ∉ s) (ht : t <:+ s) : '(' ∉ t := fun hc => h (ht.subset hc)
theorem noParen {s : Str} (h : '(' ∉ s) : char '(' s = .err := char_ne fun _ hc e => h (e ▸ hc)

theorem types_mark (p : TP α) (s : Str) : types (mark .ty p s) = types (p s) + 1 := by
  unfold mark types num
  simp

section
variable {ind : Nat} {s : Str}

theorem typePair_eq : typeRecordPair tyRec ind = (free loName >>= fun n => free (ElmParser.opt (gap ind .GTE)) >>= fun _ =>
    free (char ':') >>= fun _ => free (ElmParser.opt (gap ind .GTE)) >>= fun _ => typeAnnotation ind >>= fun t =>
      pure (n, t)) := by
  unfold typeRecordPair
  rw [free_opt]
  rfl

theorem er_typePair : Er (typeRecordPair tyRec ind) (ElmParser.typeRecordPair ElmParser.tyRec ind) := by
  unfold typeRecordPair ElmParser.typeRecordPair
  exact er_bind (er_free _) fun _ => er_bind (er_opt (er_free _)) fun _ => er_bind (er_free _) fun _ =>
    er_bind (er_opt (er_free _)) fun _ => er_bind (er_typeAnnotation ind) fun _ => er_pure _

theorem once_typePair (hn : ShorterT s.length) (hs : '(' ∉ s) : Once 0 s (typeRecordPair tyRec ind s) := by
  rw [typePair_eq]
  refine once_free (b := 0) (Nat.zero_le _) fun v r e => ?_
  have h1 := lt_of_ok cons_loName e
  have h2 := suffix_of_ok (fun k => (cons_loName k).good) e
  refine ⟨by omega, once_free (b := 0) (Nat.zero_le _) fun v r' e => ?_⟩
  have h3 := suffix_of_ok (fun k => good_oGap k ind _) e
  refine ⟨by have := h3.length_le; omega, once_free (b := 0) (Nat.zero_le _) fun v r2 e => ?_⟩
  have h4 := suffix_of_ok (fun k => (cons_char k _).good) e
  refine ⟨by have := h4.length_le; omega, once_free (b := 0) (Nat.zero_le _) fun v r3 e => ?_⟩
  have h5 := suffix_of_ok (fun k => good_oGap k ind _) e
  have h6 := (h5.trans (h4.trans h3))
  refine ⟨by have := h5.length_le; omega, once_bind (hn ind r3 (suffix_lt h6 h1) (noParen_suffix hs (h6.trans h2)))
    (fun v r _ => once_pure _ _) fun v r _ h => quiet_pure _ _ h⟩

theorem counted_pairs {G : Parser α} (hG : GapLike ind G) (hg : ∀ k, Good k G)
    (hn : ShorterT (s.length + 1)) (hs : '(' ∉ s) :
    Counted (s.length + 1) (fun r => ElmParser.terminated G (char '}') r = .err) (typeRecordPairs tyRec ind s) := by
  have hp := er_suffix (er_typePair (ind := ind)) fun k => cons_typeRecordPair' k ind
  refine counted_sepList (items_closed (fun k => cons_commaSep k ind) hp (fun u hu => ?_) (fun r h => ?_)
    fun u x w h => ?_) fun h => ?_
  · refine once_typePair (fun i w hw hs => hn i w ?_ hs) (noParen_suffix hs hu)
    have := hu.length_le
    omega
  · exact ⟨dead_sep (gapLike_opt ind) (fun k => cons_commaSep k ind) h (.inl rfl),
      dead_close hG (cons_close hg _) h (.inr (.inr rfl))⟩
  · exact sep_close (gapLike_opt ind) hG (cons_close hg _) (by decide) h
  · by_cases h0 : 0 < types (typeRecordPair tyRec ind s)
    · rw [typePair_eq] at h0
      obtain ⟨n, r, e, -⟩ := bind_types_pos h0
      exact .inr (start_close hG hg e)
    · exact .inl (by omega)

theorem clean_typeRecord (hn : ShorterT s.length) (hs : '(' ∉ s) : Clean 1 s (typeRecord tyRec ind s) := by
  unfold typeRecord
  rw [free_opt, free_preceded, free_terminated]
  refine clean_delimited (D := fun r => ElmParser.terminated (ElmParser.opt (gap ind .GTE)) (char '}') r = .err)
    (cons_opened _ fun k => good_oGap k ind _) (cons_close (fun k => good_oGap k ind _) _) (fun r h => h) fun v t e => ?_
  obtain ⟨ht, hl⟩ := opened_suffix (fun k => good_oGap k ind _) e
  exact counted_pure _ (counted_pairs (gapLike_opt ind) (fun k => good_oGap k ind _)
    (fun i w hw hs => hn i w (by omega) hs) (noParen_suffix hs ht))

theorem clean_typeRecordConstructor (hn : ShorterT s.length) (hs : '(' ∉ s) :
    Clean 1 s (typeRecordConstructor tyRec ind s) := by
  unfold typeRecordConstructor
  refine clean_delimited (D := fun r => char '}' r = .err) (fun k => cons_char k _) (fun k => cons_char k _) (fun r h => h)
    fun v t e => ?_
  have h1 := lt_of_ok (fun k => cons_char k _) e
  have h2 := suffix_of_ok (fun k => (cons_char k _).good) e
  refine counted_free fun v r e => ?_
  have h3 := suffix_of_ok (fun k => (cons_gap k ind _).good) e
  refine ⟨h3.length_le, counted_free fun v r2 e => ?_⟩
  have h4 := suffix_of_ok (fun k => (cons_typeVariable k).good) e
  refine ⟨h4.length_le, counted_free fun v r3 e => ?_⟩
  have h5 := suffix_of_ok (fun k => (cons_gap k ind _).good) e
  refine ⟨h5.length_le, counted_free fun v r4 e => ?_⟩
  have h6 := suffix_of_ok (fun k => (cons_char k _).good) e
  refine ⟨h6.length_le, counted_free fun v r5 e => ?_⟩
  have h7 := suffix_of_ok (fun k => (cons_gap k ind _).good) e
  have h8 := h7.trans (h6.trans (h5.trans (h4.trans h3)))
  refine ⟨h7.length_le, counted_then _ (fun k => (cons_gap k ind _).good) (counted_pairs (gapLike_gap ind)
    (fun k => (cons_gap k ind _).good) (fun i w hw hs => hn i w ?_ hs) (noParen_suffix hs (h8.trans h2)))
    fun r i q h e => ?_⟩
  · have := h8.length_le
    omega
  · refine err_of (fun k => cons_char k _) fun v t e' => ?_
    rw [terminated_eq_ok.2 ⟨q, v, e, e'⟩] at h
    cases h

/-- If the fields of a record that extends another one are read, then it is no record. -/
theorem typeRecord_bar (h : 0 < types (typeRecordConstructor tyRec ind s)) : typeRecord tyRec ind s = (.err, []) := by
  unfold typeRecordConstructor delimited at h
  obtain ⟨x, r0, e, h'⟩ := bind_types_pos h
  obtain ⟨-, rfl⟩ := char_eq_ok.1 e
  clear h
  have h := h'
  clear h'
  rw [types_bind_free fun v q => types_closing (char '}') v q] at h
  obtain ⟨i, r1, e1, h⟩ := bind_types_pos h
  obtain ⟨v, r2, e2, h⟩ := bind_types_pos h
  obtain ⟨j, r3, e3, h⟩ := bind_types_pos h
  obtain ⟨b, t, e4, -⟩ := bind_types_pos h
  obtain ⟨-, rfl⟩ := char_eq_ok.1 e4
  obtain ⟨n, -, rfl, ⟨c, cs, rfl, hc, hcs⟩, -⟩ := typeVariable_iff.1 e2
  have hid : Next (fun c => ¬ IdentChar c) r2 := by
    obtain ⟨ls, last, hg, -⟩ := gap_iff.1 e3
    obtain ⟨d, u, rfl, hd⟩ := gap_first hg
    refine next_cons.2 ?_
    rcases hd with rfl | rfl | rfl <;> decide
  have hp : typeRecordPair tyRec ind (c :: cs ++ r2) = (.err, []) := by
    rw [typePair_eq]
    by_cases hk : c :: cs ∈ keywords
    · exact quiet_bind (loName_keyword hk hid)
    · have hn : LoName (c :: cs) := .inr ⟨⟨c, cs, rfl, hc, fun x hx => ?_⟩, hk⟩
      · rw [bind_ok_eq (loName_complete hn hid), bind_ok_eq (opt_eq_ok.2 (.inl ⟨j, e3, rfl⟩))]
        exact quiet_bind (char_cons_ne _ (by decide))
      · exact tyVarChar_ident (hcs x hx)
  have hl : typeRecordPairs tyRec ind (c :: cs ++ r2) = (.ok [] (c :: cs ++ r2), []) := by
    unfold typeRecordPairs sepList
    rw [hp]
  have hO : ElmParser.preceded (char '{') (ElmParser.opt (gap ind .GTE)) ('{' :: r0) = .ok (some i) (c :: cs ++ r2) := by
    rw [preceded_apply, char_cons, andThen_ok]
    exact opt_eq_ok.2 (.inl ⟨i, e1, rfl⟩)
  have hC : ElmParser.terminated (ElmParser.opt (gap ind .GTE)) (char '}') (c :: cs ++ r2) = .err := by
    refine head_close (gapLike_opt ind) (cons_close (fun k => good_oGap k ind _) _) ⟨?_, ?_, ?_⟩ ?_ <;> rintro rfl <;>
      revert hc <;> decide
  unfold typeRecord delimited
  rw [free_preceded_opt, free_opt, free_terminated, bind_ok_eq hO]
  have hm : pmap (typeRecordPairs tyRec ind) Ty.TypeRecord (c :: cs ++ r2) = (.ok (.TypeRecord []) (c :: cs ++ r2), []) := by
    unfold pmap
    rw [bind_ok0 hl]
    rfl
  rw [bind_ok0 hm]
  exact quiet_bind hC

theorem none_typeTuple (h : char '(' s = .err) : None (typeTuple tyRec ind s) := by
  unfold typeTuple
  rw [free_opt, free_preceded]
  have : ElmParser.preceded (char '(') (ElmParser.opt (gap ind .GTE)) s = .err := by rw [preceded_apply, h]; rfl
  refine none_err ?_
  unfold pmap
  refine bind_err_eq ?_
  exact quiet_bind this

theorem none_typeParens (h : char '(' s = .err) : None (typeParens tyRec ind s) := by
  unfold typeParens
  rw [free_opt, free_preceded]
  exact none_bind (by rw [preceded_apply, h]; rfl)

theorem none_typeRecord (h : char '{' s = .err) : None (typeRecord tyRec ind s) := by
  unfold typeRecord
  rw [free_opt, free_preceded]
  exact none_bind (by rw [preceded_apply, h]; rfl)

theorem none_typeRecordConstructor (h : char '{' s = .err) : None (typeRecordConstructor tyRec ind s) := by
  unfold typeRecordConstructor
  exact none_bind h

/-- The record types, after which nothing is tried with success. -/
theorem clean_records (hn : ShorterT s.length) (hs : '(' ∉ s) :
    Clean 1 s ((typeRecordConstructor tyRec ind </> typeRecord tyRec ind </> typeTuple tyRec ind </> typeParens tyRec ind) s) := by
  have ht := none_typeTuple (ind := ind) (noParen hs)
  have hp := none_typeParens (ind := ind) (noParen hs)
  have htp := none_alt ht hp
  exact clean_alt (clean_typeRecordConstructor hn hs) (clean_alt (clean_typeRecord hn hs) (htp.clean s) fun _ _ => htp)
    fun _ h => none_alt (none_err (typeRecord_bar h)) htp

theorem none_records (hs : '(' ∉ s) (h : char '{' s = .err) :
    None ((typeRecordConstructor tyRec ind </> typeRecord tyRec ind </> typeTuple tyRec ind </> typeParens tyRec ind) s) :=
  none_alt (none_typeRecordConstructor h) (none_alt (none_typeRecord h) (none_alt (none_typeTuple (noParen hs))
    (none_typeParens (noParen hs))))

theorem clean_typeParameter (hn : ShorterT s.length) (hs : '(' ∉ s) : Clean 1 s (typeParameter tyRec ind s) := by
  unfold typeParameter
  exact clean_alt (clean_free cons_typeVariable s) (clean_alt (clean_free cons_typeConstant s) (clean_records hn hs)
    fun _ h => absurd h (Nat.lt_irrefl 0)) fun _ h => absurd h (Nat.lt_irrefl 0)

theorem typeParameter_opens (hs : '(' ∉ s) (h : 0 < types (typeParameter tyRec ind s)) : Opens s := by
  cases hc : char '{' s with
  | ok c t =>
    obtain ⟨-, rfl⟩ := char_eq_ok.1 hc
    exact ⟨t, .inr rfl⟩
  | err =>
    have : types (typeParameter tyRec ind s) = 0 := by
      unfold typeParameter
      exact types_alt_zero rfl (types_alt_zero rfl (none_records hs hc).1)
    omega
  | panic => exact absurd hc (by cases s <;> unfold char <;> simp <;> split <;> simp)
  | div => exact absurd hc (by cases s <;> unfold char <;> simp <;> split <;> simp)

theorem counted_args (hn : ShorterT s.length) (hs : '(' ∉ s) : Counted s.length DeadArg (many0 (typeArg tyRec ind) s) := by
  have he : Er (typeArg tyRec ind) (ElmParser.typeArg ElmParser.tyRec ind) := er_typeArg er_tyRec ind
  refine counted_many0 _ (er_suffix he fun k => cons_typeArg' k ind) (fun t ht => ?_) (fun t ht e h0 => ?_) s
    (List.suffix_refl s)
  · unfold typeArg
    cases hg : gap ind .GT t with
    | ok i u =>
      have h1 := lt_of_ok (fun k => cons_gap k ind _) hg
      have h2 := suffix_of_ok (fun k => (cons_gap k ind _).good) hg
      rw [bind_ok_eq hg]
      have hl := ht.length_le
      have k := clean_typeParameter (ind := i) (s := u) (fun j w hw hs => hn j w (by omega) hs)
        (noParen_suffix hs (h2.trans ht))
      refine ⟨?_, fun v r e => ?_⟩
      · have := k.1
        show types (typeParameter tyRec i u) ≤ _
        omega
      · have := k.2 v r e
        show types (typeParameter tyRec i u) + _ ≤ _
        omega
    | err => rw [quiet_bind hg]; exact ⟨Nat.zero_le _, fun v r e => by cases e⟩
    | panic =>
      have := err_or_ok (fun k => cons_gap k ind .GT) t
      rw [hg] at this
      rcases this with h | ⟨_, _, h, -⟩ <;> cases h
    | div =>
      have := err_or_ok (fun k => cons_gap k ind .GT) t
      rw [hg] at this
      rcases this with h | ⟨_, _, h, -⟩ <;> cases h
  · obtain ⟨i, u, hg, h0⟩ := bind_types_pos h0
    have h2 := suffix_of_ok (fun k => (cons_gap k ind _).good) hg
    exact deadArg_of_gap hg (typeParameter_opens (noParen_suffix hs (h2.trans ht)) h0)

theorem tidy_typeConstructor (hn : ShorterT s.length) (hs : '(' ∉ s) : Tidy DeadArg 1 s (typeConstructorF tyRec ind s) := by
  unfold typeConstructorF
  cases hg : ElmParser.sepNonemptyList (char '.') upName s with
  | ok i u =>
    rw [bind_ok_eq hg]
    have h1 := lt_of_ok cons_upDots hg
    have h2 := suffix_of_ok (fun k => (cons_upDots k).good) hg
    have k := counted_pure (fun w => Ty.TypeConstructor i w) (counted_args (ind := ind) (s := u)
      (fun j w hw hs => hn j w (by omega) hs) (noParen_suffix hs h2))
    refine ⟨by have := k.1; omega, fun v r e => ?_⟩
    rcases k.2 v r e with k | k
    · exact .inl (by omega)
    · exact .inr k
  | err => rw [quiet_bind hg]; exact ⟨by show 0 + 1 ≤ _; omega, fun v r e => by cases e⟩
  | panic =>
    have := err_or_ok cons_upDots s
    rw [hg] at this
    rcases this with h | ⟨_, _, h, -⟩ <;> cases h
  | div =>
    have := err_or_ok cons_upDots s
    rw [hg] at this
    rcases this with h | ⟨_, _, h, -⟩ <;> cases h

theorem typeConstructor_err (h : (typeConstructorF tyRec ind s).1 = .err) : types (typeConstructorF tyRec ind s) = 0 := by
  unfold typeConstructorF at h ⊢
  rcases err_or_ok cons_upDots s with hg | ⟨i, u, hg, -⟩
  · rw [quiet_bind hg]; rfl
  · rw [bind_ok_eq hg] at h
    have he : Er (many0 (typeArg tyRec ind)) (ElmParser.many0 (ElmParser.typeArg ElmParser.tyRec ind)) :=
      er_many0 (er_typeArg er_tyRec ind)
    obtain ⟨v, r, e, -⟩ := many0Loop_good (cons_typeArg' (u.length + 1) ind).good (u.length + 1) u (by omega) (by omega)
    have e' : (many0 (typeArg tyRec ind) u).1 = .ok v r := (he u).trans e
    have := andThen_fst (f := fun w => (pure (Ty.TypeConstructor i w) : TP Ty)) e'
    have h : (andThen (many0 (typeArg tyRec ind) u) fun w => (pure (Ty.TypeConstructor i w) : TP Ty)).1 = .err := h
    rw [this] at h
    cases h

theorem tidy_typeF (hn : ShorterT s.length) (hs : '(' ∉ s) : Tidy DeadArg 0 s (typeF tyRec ind s) := by
  have k : Tidy DeadArg 1 s ((typeConstructorF tyRec ind </> free typeVariable </> typeRecordConstructor tyRec ind </>
      typeRecord tyRec ind </> typeTuple tyRec ind </> typeParens tyRec ind) s) :=
    tidy_alt (tidy_typeConstructor hn hs) (tidy_alt (clean_free cons_typeVariable s).tidy (clean_records hn hs).tidy
      fun _ h => absurd h (Nat.lt_irrefl 0)) fun e h => by rw [typeConstructor_err e] at h; omega
  unfold typeF Tidy
  rw [types_mark]
  exact ⟨k.1, fun v r e => k.2 v r e⟩

/-- An arrow with spaces before it. -/
theorem arrow_gap {t u x : Str} (h : arrowSep t = .ok x u) : ∃ i q, gap 0 .GTE t = .ok i ('-' :: '>' :: q) := by
  obtain ⟨a, r1, r2, c, h1, h2, -⟩ := delimited_eq_ok.1 h
  obtain ⟨rfl, ha, -⟩ := spacesAndNewlines_iff.1 h1
  obtain ⟨rfl, rfl⟩ := tag_eq_ok.1 h2
  obtain ⟨ls, n, hg⟩ := spaceNl_gap ha (r := '-' :: '>' :: r2) ⟨next_cons.2 (by decide), fun t e => by cases e⟩
  by_cases hl : ls = []
  · exact ⟨_, r2, gap_iff.2 ⟨ls, _, hg, .inl ⟨hl, rfl⟩⟩⟩
  · exact ⟨_, r2, gap_iff.2 ⟨ls, _, hg, .inr ⟨hl, rfl, Nat.zero_le _⟩⟩⟩

theorem arrow_dead {t u x : Str} (h : arrowSep t = .ok x u) : Dead t := by
  obtain ⟨i, q, hg⟩ := arrow_gap h
  exact dead_of_gap hg (.inr (.inl ⟨'-', _, rfl, by decide⟩))

theorem deadArg_arrow {t : Str} (h : DeadArg t) : arrowSep t = .err := by
  refine err_of cons_arrowSep fun x u e => ?_
  obtain ⟨i, q, hg⟩ := arrow_gap e
  obtain ⟨u, h | h⟩ := deadArg_gap h hg <;> cases h

theorem items_types (hn : ShorterT s.length) (hs : '(' ∉ s) : Items arrowSep (typeF tyRec ind) Dead s where
  sepCons := cons_arrowSep
  suffix := er_suffix (er_typeF er_tyRec ind) fun k => cons_typeF' k ind
  once t ht := by
    have k := tidy_typeF (ind := ind) (s := t) (fun j w hw hs => hn j w (Nat.lt_of_lt_of_le hw ht.length_le) hs)
      (noParen_suffix hs ht)
    exact ⟨k.1, fun v r e => (k.2 v r e).imp id fun h => ⟨deadArg_arrow h, h.dead⟩⟩
  err t u x _ e _ := .inr (arrow_dead e)

theorem once_annotationF (hn : ShorterT s.length) (hs : '(' ∉ s) : Once 0 s (typeAnnotationF tyRec ind s) := by
  unfold typeAnnotationF
  refine tidy_keep (tidy_nonempty (items_types hn hs)) fun v r => ?_
  have hf : types (free (Parser.fail : Parser Ty) r) = 0 ∧ ∀ w q, (free (Parser.fail : Parser Ty) r).1 = .ok w q → q = r :=
    ⟨rfl, fun w q e => by cases e⟩
  split
  · exact hf
  split
  · refine ⟨rfl, fun w q e => ?_⟩
    have e : index v 0 r = .ok w q := e
    unfold index at e
    split at e <;> cases e
    rfl
  cases buildArrows v.reverse with
  | some app => exact ⟨rfl, fun w q e => by cases e; rfl⟩
  | none => exact hf

end

theorem shorterT (n : Nat) : ShorterT n := by
  induction n with
  | zero => exact fun ind t h => absurd h (Nat.not_lt_zero _)
  | succ n ih =>
    intro ind t h hs
    rw [typeAnnotation_unfold]
    exact once_annotationF (fun j w hw hs => ih j w (by omega) hs) hs

theorem once_annotation (ind : Nat) {s : Str} (hs : '(' ∉ s) : Once 0 s (typeAnnotation ind s) :=
  shorterT (s.length + 1) ind s (Nat.lt_succ_self _) hs

theorem tidy_type (ind : Nat) {s : Str} (hs : '(' ∉ s) : Tidy DeadArg 0 s (type_ ind s) := by
  rw [type_unfold]
  exact tidy_typeF (shorterT _) hs

theorem tidy_constructor (ind : Nat) {s : Str} (hs : '(' ∉ s) : Tidy DeadArg 1 s (typeConstructor ind s) :=
  tidy_typeConstructor (shorterT _) hs

end TyLin
end Trace
end ElmParser
