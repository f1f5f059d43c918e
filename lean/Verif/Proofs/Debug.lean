import Verif.Model.Debug

/-! The `{:#?}` rendering can be read back: it determines the value rendered. -/
namespace ElmParser

/-! ### Texts that end where a class of characters ends -/

/-- `r` does not start with a character of the class. -/
def NotNext (p : Char → Bool) (r : Str) : Prop := ∀ c t, r = c :: t → p c = false

theorem span_unique {p : Char → Bool} {a b r r' : Str} (ha : ∀ c ∈ a, p c = true) (hb : ∀ c ∈ b, p c = true)
    (hr : NotNext p r) (hr' : NotNext p r') (h : a ++ r = b ++ r') : a = b ∧ r = r' := by
  induction a generalizing b with
  | nil =>
    cases b with
    | nil => exact ⟨rfl, h⟩
    | cons c b =>
      have := hr c (b ++ r') h
      rw [hb c (by simp)] at this
      cases this
  | cons c a ih =>
    cases b with
    | nil =>
      have := hr' c (a ++ r) h.symm
      rw [ha c (by simp)] at this
      cases this
    | cons d b =>
      obtain ⟨rfl, h'⟩ := List.cons.inj h
      obtain ⟨rfl, rfl⟩ := ih (fun c hc => ha c (List.mem_cons_of_mem _ hc))
        (fun c hc => hb c (List.mem_cons_of_mem _ hc)) h'
      exact ⟨rfl, rfl⟩

/-! ### Numbers -/

/-- The digits up to base 16. -/
def isHex (c : Char) : Bool := ('0' ≤ c ∧ c ≤ '9') ∨ ('a' ≤ c ∧ c ≤ 'f')

theorem digitChar_spec : ∀ d < 16, isHex (digitChar d) = true ∧ (d < 10 → isDigit (digitChar d) = true) ∧
    ∀ e < 16, digitChar d = digitChar e → d = e := by decide

theorem digitsIn_class {b : Nat} {p : Char → Bool} (hp : ∀ d < b, p (digitChar d) = true) (hb : 0 < b) :
    ∀ fuel n, ∀ c ∈ digitsIn b fuel n, p c = true := by
  intro fuel
  induction fuel with
  | zero => intro n c h; simp [digitsIn] at h
  | succ f ih =>
    intro n c h
    rw [digitsIn] at h
    split at h
    · next hn => rw [List.mem_singleton] at h; rw [h]; exact hp n hn
    · rw [List.mem_append, List.mem_singleton] at h
      rcases h with h | h
      · exact ih _ c h
      · rw [h]; exact hp _ (Nat.mod_lt _ hb)

theorem digitsIn_ne {b fuel n : Nat} : digitsIn b (fuel + 1) n ≠ [] := by
  rw [digitsIn]
  split
  · simp
  · simp

theorem digitsIn_inj {b : Nat} (h2 : 2 ≤ b) (h16 : b ≤ 16) :
    ∀ {f f' n m : Nat}, n < f → m < f' → digitsIn b f n = digitsIn b f' m → n = m := by
  intro f
  induction f with
  | zero => intro f' n m h; omega
  | succ f ih =>
    intro f' n m hn hm h
    cases f' with
    | zero => omega
    | succ f' =>
      have key : ∀ {k g : Nat}, b ≤ k → k < g + 1 → k / b < g := by
        intro k g h1 h3
        have : k / b < k := Nat.div_lt_self (by omega) (by omega)
        omega
      have two : ∀ {k g : Nat}, b ≤ k → k < g + 1 → ∀ x, digitsIn b g (k / b) ++ [x] ≠ [digitChar n] ∧
          digitsIn b g (k / b) ++ [x] ≠ [digitChar m] := by
        intro k g h1 h3 x
        cases g with
        | zero => omega
        | succ g =>
          have : digitsIn b (g + 1) (k / b) ≠ [] := digitsIn_ne
          cases e : digitsIn b (g + 1) (k / b) with
          | nil => exact absurd e this
          | cons a l => constructor <;> intro h <;> simp at h
      rw [digitsIn, digitsIn] at h
      split at h <;> split at h
      · next h3 h4 =>
        exact ((digitChar_spec n (by omega)).2.2 m (by omega) (List.cons.inj h).1)
      · next h3 h4 => exact absurd h.symm (two (by omega) (by omega) _).1
      · next h3 h4 => exact absurd h (two (by omega) (by omega) _).2
      · next h3 h4 =>
        obtain ⟨e1, e2⟩ := List.append_inj' h rfl
        have h5 := ih (key (by omega) hn) (key (by omega) hm) e1
        have m1 : n % b < b := Nat.mod_lt _ (by omega)
        have m2 : m % b < b := Nat.mod_lt _ (by omega)
        have h6 := (digitChar_spec (n % b) (by omega)).2.2 (m % b) (by omega) (List.cons.inj e2).1
        rw [← Nat.div_add_mod n b, ← Nat.div_add_mod m b, h5, h6]

theorem natText_inj {b n m : Nat} (h2 : 2 ≤ b) (h16 : b ≤ 16) (h : natText b n = natText b m) : n = m :=
  digitsIn_inj h2 h16 (Nat.lt_succ_self n) (Nat.lt_succ_self m) h

theorem natText_digit (n : Nat) : ∀ c ∈ natText 10 n, isDigit c = true :=
  digitsIn_class (fun d hd => (digitChar_spec d (by omega)).2.1 hd) (by omega) _ _

theorem natText_hex (n : Nat) : ∀ c ∈ natText 16 n, isHex c = true :=
  digitsIn_class (fun d hd => (digitChar_spec d hd).1) (by omega) _ _

theorem natText_cons (n : Nat) : ∃ c t, natText 10 n = c :: t ∧ isDigit c = true := by
  cases h : natText 10 n with
  | nil => exact absurd h digitsIn_ne
  | cons c t => exact ⟨c, t, rfl, natText_digit n c (by rw [h]; simp)⟩

theorem intText_inj {n m : Int} {r r' : Str} (hr : NotNext isDigit r) (hr' : NotNext isDigit r')
    (h : intText n ++ r = intText m ++ r') : n = m ∧ r = r' := by
  have no : ∀ k l, ∀ u v : Str, '-' :: (natText 10 k ++ u) ≠ natText 10 l ++ v := by
    intro k l u v h
    obtain ⟨c, t, e, hc⟩ := natText_cons l
    rw [e] at h
    obtain ⟨rfl, -⟩ := List.cons.inj h
    cases hc
  cases n with
  | ofNat n =>
    cases m with
    | ofNat m =>
      obtain ⟨e, rfl⟩ := span_unique (natText_digit n) (natText_digit m) hr hr' h
      exact ⟨by rw [natText_inj (by omega) (by omega) e], rfl⟩
    | negSucc m => exact absurd h.symm (no _ _ _ _)
  | negSucc n =>
    cases m with
    | ofNat m => exact absurd h (no _ _ _ _)
    | negSucc m =>
      obtain ⟨e, rfl⟩ := span_unique (natText_digit _) (natText_digit _) hr hr' (List.cons.inj h).2
      have := natText_inj (by omega) (by omega) e
      exact ⟨by congr 1; omega, rfl⟩

/-! ### Literals -/

/-- What a character after a backslash stands for. -/
def short (x : Char) : Char :=
  if x = 't' then '\t' else if x = 'r' then '\r' else if x = 'n' then '\n' else if x = '0' then '\x00' else x

/-- The three forms of a character in a literal. -/
theorem escape_forms (st : Style) {q : Char} (hq : q = '"' ∨ q = '\'') (c : Char) :
    (escape st q c = [c] ∧ c ≠ '\\' ∧ c ≠ q) ∨
    (∃ x, x ≠ 'u' ∧ escape st q c = ['\\', x] ∧ c = short x) ∨
    escape st q c = '\\' :: 'u' :: '{' :: (natText 16 c.toNat ++ ['}']) := by
  unfold escape
  split
  · next h => exact .inr (.inl ⟨'t', by decide, rfl, h⟩)
  split
  · next h => exact .inr (.inl ⟨'r', by decide, rfl, h⟩)
  split
  · next h => exact .inr (.inl ⟨'n', by decide, rfl, h⟩)
  split
  · next h => exact .inr (.inl ⟨'\\', by decide, rfl, h⟩)
  split
  · next h =>
    refine .inr (.inl ⟨c, ?_, rfl, ?_⟩)
    · rcases hq with rfl | rfl <;> subst h <;> decide
    · rcases hq with rfl | rfl <;> subst h <;> decide
  split
  · next h =>
    refine .inr (.inl ⟨c, ?_, rfl, ?_⟩)
    · rcases h.2 with rfl | rfl <;> decide
    · rcases h.2 with rfl | rfl <;> decide
  split
  · next h => exact .inr (.inl ⟨'0', by decide, rfl, h.2⟩)
  split
  · exact .inr (.inr rfl)
  · next h1 h2 _ _ _ => exact .inl ⟨rfl, h1, h2⟩

theorem escape_inj {st : Style} {q : Char} (hq : q = '"' ∨ q = '\'') {c c' : Char} {r r' : Str}
    (h : escape st q c ++ r = escape st q c' ++ r') : c = c' ∧ r = r' := by
  rcases escape_forms st hq c with ⟨e, h1, h2⟩ | ⟨x, h1, e, h2⟩ | e <;>
    rcases escape_forms st hq c' with ⟨e', h1', h2'⟩ | ⟨x', h1', e', h2'⟩ | e' <;> rw [e, e'] at h <;>
    simp only [List.cons_append, List.nil_append, List.cons.injEq, true_and] at h
  · exact h
  · exact absurd h.1 h1
  · exact absurd h.1 h1
  · exact absurd h.1.symm h1'
  · obtain ⟨rfl, rfl⟩ := h
    exact ⟨h2.trans h2'.symm, rfl⟩
  · exact absurd h.1 h1
  · exact absurd h.1.symm h1'
  · exact absurd h.1.symm h1'
  · rw [List.append_assoc, List.append_assoc] at h
    have hn : ∀ t, NotNext isHex (['}'] ++ t) := by
      intro t c u e
      obtain ⟨rfl, -⟩ := List.cons.inj e
      rfl
    obtain ⟨e1, e2⟩ := span_unique (natText_hex _) (natText_hex _) (hn _) (hn _) h
    have e3 := natText_inj (by omega) (by omega) e1
    exact ⟨Char.toNat_inj.1 e3, (List.cons.inj e2).2⟩

/-- No character is written starting with the closing quote. -/
theorem escape_ne {st : Style} {q : Char} (hq : q = '"' ∨ q = '\'') {c : Char} {r r' : Str} :
    escape st q c ++ r ≠ q :: r' := by
  intro h
  have hs : '\\' ≠ q := by rcases hq with rfl | rfl <;> decide
  rcases escape_forms st hq c with ⟨e, h1, h2⟩ | ⟨x, h1, e, h2⟩ | e <;> rw [e] at h
  · exact h2 (List.cons.inj h).1
  · exact hs (List.cons.inj h).1
  · exact hs (List.cons.inj h).1

theorem chars_inj {st : Style} {s s' r r' : Str}
    (h : s.flatMap (escape st '"') ++ '"' :: r = s'.flatMap (escape st '"') ++ '"' :: r') : s = s' ∧ r = r' := by
  induction s generalizing s' with
  | nil =>
    cases s' with
    | nil => exact ⟨rfl, (List.cons.inj h).2⟩
    | cons c s' =>
      rw [List.flatMap_cons, List.append_assoc] at h
      exact absurd h.symm (escape_ne (.inl rfl))
  | cons c s ih =>
    cases s' with
    | nil =>
      rw [List.flatMap_cons, List.append_assoc] at h
      exact absurd h (escape_ne (.inl rfl))
    | cons c' s' =>
      rw [List.flatMap_cons, List.flatMap_cons, List.append_assoc, List.append_assoc] at h
      obtain ⟨rfl, h'⟩ := escape_inj (.inl rfl) h
      obtain ⟨rfl, rfl⟩ := ih h'
      exact ⟨rfl, rfl⟩

theorem strText_inj {st : Style} {s s' r r' : Str} (h : strText st s ++ r = strText st s' ++ r') : s = s' ∧ r = r' := by
  refine chars_inj (st := st) ?_
  simpa [strText] using h

theorem charText_inj {st : Style} {c c' : Char} {r r' : Str} (h : charText st c ++ r = charText st c' ++ r') :
    c = c' ∧ r = r' := by
  simp only [charText, List.cons_append, List.cons.injEq, true_and, List.append_assoc] at h
  obtain ⟨rfl, h'⟩ := escape_inj (.inr rfl) h
  exact ⟨rfl, (List.cons.inj h').2⟩

/-! ### Trees -/

/-- The characters of a Rust identifier in the instances above. -/
def isLetter (c : Char) : Bool := ('a' ≤ c ∧ c ≤ 'z') ∨ ('A' ≤ c ∧ c ≤ 'Z') ∨ c = '_'

/-- A Rust identifier, or the empty name of a tuple. -/
def Letters (n : Str) : Prop := ∀ c ∈ n, isLetter c = true

mutual
/-- The names in a rendered value are identifiers; only a tuple with fields may have the empty name. -/
def Dbg.Named : Dbg → Prop
  | .tuple n fs => Letters n ∧ (fs = [] → n ≠ []) ∧ NamedAll fs
  | .struct n fs => Letters n ∧ n ≠ [] ∧ NamedFields fs
  | .list xs => NamedAll xs
  | _ => True
@[inherit_doc Dbg.Named]
def NamedAll : List Dbg → Prop
  | [] => True
  | x :: xs => x.Named ∧ NamedAll xs
@[inherit_doc Dbg.Named]
def NamedFields : List (Str × Dbg) → Prop
  | [] => True
  | (n, x) :: xs => Letters n ∧ x.Named ∧ NamedFields xs
end

/-- What can follow a rendered value: a comma, the end of a line, or nothing. -/
def Ends (r : Str) : Prop := r = [] ∨ ∃ c t, r = c :: t ∧ (c = ',' ∨ c = '\n')

theorem Ends.next {r : Str} {p : Char → Bool} (h : Ends r) (h1 : p ',' = false) (h2 : p '\n' = false) : NotNext p r := by
  rintro c t rfl
  rcases h with h | ⟨c', t', e, hc⟩
  · cases h
  · obtain ⟨rfl, rfl⟩ := List.cons.inj e
    rcases hc with rfl | rfl <;> assumption

/-- The sort of value a first character belongs to. -/
def sortOf (c : Char) : Nat :=
  if c = '"' then 0 else if c = '\'' then 1 else if isDigit c ∨ c = '-' then 2 else if c = '[' then 3 else 4

/-- The sort of a value. -/
def Dbg.sort : Dbg → Nat
  | .str _ => 0
  | .chr _ => 1
  | .int _ => 2
  | .list _ => 3
  | .tuple _ _ => 4
  | .struct _ _ => 4

theorem sortOf_letter {c : Char} (h : isLetter c = true) : sortOf c = 4 := by
  unfold sortOf
  have hd : ¬ (isDigit c = true ∨ c = '-') := by
    rintro (hd | rfl)
    · unfold isLetter at h
      unfold isDigit at hd
      simp only [decide_eq_true_eq, Char.le_def, UInt32.le_iff_toNat_le] at h hd
      rcases h with h | h | rfl
      · have := h.1; have := hd.2
        have h1 : 'a'.val.toNat = 97 := rfl
        have h2 : '9'.val.toNat = 57 := rfl
        omega
      · have := h.1; have := hd.2
        have h1 : 'A'.val.toNat = 65 := rfl
        have h2 : '9'.val.toNat = 57 := rfl
        omega
      · exact absurd hd.2 (by decide)
    · cases h
  rw [if_neg (by rintro rfl; cases h), if_neg (by rintro rfl; cases h), if_neg hd, if_neg (by rintro rfl; cases h)]

theorem render_sort (st : Style) (d : Nat) (x : Dbg) (hx : x.Named) (r : Str) :
    ∃ c t, render st d x ++ r = c :: t ∧ sortOf c = x.sort := by
  have name : ∀ (n u : Str), Letters n → (n = [] → ∃ v, u = '(' :: v) → ∃ c t, n ++ u = c :: t ∧ sortOf c = 4 := by
    intro n u hn hu
    cases n with
    | nil => obtain ⟨v, rfl⟩ := hu rfl; exact ⟨_, _, rfl, rfl⟩
    | cons c n => exact ⟨c, n ++ u, rfl, sortOf_letter (hn c (by simp))⟩
  cases x with
  | str s => rw [render, strText]; exact ⟨_, _, rfl, rfl⟩
  | chr s => rw [render, charText]; exact ⟨_, _, rfl, rfl⟩
  | int n =>
    rw [render]
    cases n with
    | ofNat n =>
      obtain ⟨c, t, e, hc⟩ := natText_cons n
      refine ⟨c, t ++ r, by rw [intText, e]; rfl, ?_⟩
      unfold sortOf
      rw [if_neg (by rintro rfl; cases hc), if_neg (by rintro rfl; cases hc), if_pos (.inl hc)]
      rfl
    | negSucc n => exact ⟨_, _, rfl, rfl⟩
  | list xs =>
    rw [render]
    split <;> exact ⟨_, _, rfl, rfl⟩
  | tuple n fs =>
    rw [Dbg.Named] at hx
    rw [render]
    split
    · next hf =>
      rw [List.isEmpty_iff] at hf
      exact name n r hx.1 fun h => absurd h (hx.2.1 hf)
    · simp only [List.append_assoc, List.cons_append]
      exact name n _ hx.1 fun _ => ⟨_, rfl⟩
  | struct n fs =>
    rw [Dbg.Named] at hx
    rw [render]
    simp only [List.append_assoc]
    exact name n _ hx.1 fun h => absurd h hx.2.1

theorem line_inj {d : Nat} {r r' : Str} (h : line d ++ r = line d ++ r') : r = r' := List.append_cancel_left h

/-- A line of greater depth. -/
theorem line_ne {d : Nat} {c : Char} (hc : c ≠ ' ') {r r' : Str} : line d ++ c :: r ≠ line (d + 1) ++ r' := by
  intro h
  unfold line at h
  rw [show 4 * (d + 1) = 4 * d + (3 + 1) by omega, ← List.replicate_append_replicate, List.cons_append, List.cons_append,
    List.append_assoc] at h
  have := List.append_cancel_left (List.cons.inj h).2
  rw [List.replicate_succ] at this
  exact hc (List.cons.inj this).1

theorem items_ends (st : Style) (e : Bool) (xs : Str) (d : Nat) (u : Str) (h : xs = [] ∨ ∃ v, xs = '\n' :: v) :
    Ends (commaAfter st e ++ (xs ++ (line d ++ u))) := by
  unfold commaAfter
  split
  · rcases h with rfl | ⟨v, rfl⟩ <;> exact .inr ⟨_, _, rfl, .inr rfl⟩
  · exact .inr ⟨_, _, rfl, .inl rfl⟩

theorem renderItems_head (st : Style) (d : Nat) (xs : List Dbg) :
    renderItems st d xs = [] ∨ ∃ v, renderItems st d xs = '\n' :: v := by
  cases xs with
  | nil => exact .inl (by rw [renderItems])
  | cons x xs => exact .inr (by rw [renderItems, line]; exact ⟨_, rfl⟩)

theorem renderFields_head (st : Style) (d : Nat) (xs : List (Str × Dbg)) :
    renderFields st d xs = [] ∨ ∃ v, renderFields st d xs = '\n' :: v := by
  cases xs with
  | nil => exact .inl (by rw [renderFields])
  | cons x xs => exact .inr (by rw [renderFields, line]; exact ⟨_, rfl⟩)

/-- The comma after an entry shows whether more follow. -/
theorem comma_inj {st : Style} {α : Type} {xs ys : List α} {a b : Str} {d : Nat} {u v : Str}
    (ha : xs = [] → a = []) (hb : ys = [] → b = [])
    (h : commaAfter st xs.isEmpty ++ (a ++ (line d ++ u)) = commaAfter st ys.isEmpty ++ (b ++ (line d ++ v))) :
    a ++ (line d ++ u) = b ++ (line d ++ v) := by
  cases xs with
  | nil =>
    cases ys with
    | nil => exact List.append_cancel_left h
    | cons y ys =>
      cases hc : st.comma with
      | true => simpa [commaAfter, hc] using h
      | false =>
        rw [ha rfl] at h
        simp [commaAfter, hc, line] at h
  | cons x xs =>
    cases ys with
    | nil =>
      cases hc : st.comma with
      | true => simpa [commaAfter, hc] using h
      | false =>
        rw [hb rfl] at h
        simp [commaAfter, hc, line] at h
    | cons y ys => exact List.append_cancel_left h

mutual
theorem render_inj {st : Style} : (x y : Dbg) → {d : Nat} → {r r' : Str} → x.Named → y.Named → Ends r → Ends r' →
    render st d x ++ r = render st d y ++ r' → x = y ∧ r = r'
  | x, y, d, r, r', hx, hy, hr, hr', h => by
    obtain ⟨c, t, e, hc⟩ := render_sort st d x hx r
    obtain ⟨c', t', e', hc'⟩ := render_sort st d y hy r'
    rw [e, e'] at h
    obtain ⟨rfl, h⟩ := List.cons.inj h
    have hs := hc.symm.trans hc'
    have h : render st d x ++ r = render st d y ++ r' := by rw [e, e', h]
    have open_ : ∀ {u v : Str}, NotNext isLetter ('(' :: u) ∧ NotNext isLetter (' ' :: v) := by
      intro u v
      constructor <;> (intro c t e; obtain ⟨rfl, -⟩ := List.cons.inj e; rfl)
    have hl : ∀ {r : Str}, Ends r → NotNext isLetter r := fun h => h.next rfl rfl
    clear e e' hc hc'
    match x, y with
    | .str a, .str b =>
      rw [render, render] at h
      obtain ⟨rfl, rfl⟩ := strText_inj h
      exact ⟨rfl, rfl⟩
    | .chr a, .chr b =>
      rw [render, render] at h
      obtain ⟨rfl, rfl⟩ := charText_inj h
      exact ⟨rfl, rfl⟩
    | .int a, .int b =>
      rw [render, render] at h
      obtain ⟨rfl, rfl⟩ := intText_inj (hr.next rfl rfl) (hr'.next rfl rfl) h
      exact ⟨rfl, rfl⟩
    | .list xs, .list ys =>
      rw [Dbg.Named] at hx hy
      rw [render, render] at h
      cases xs with
      | nil =>
        cases ys with
        | nil => exact ⟨rfl, List.append_cancel_left h⟩
        | cons y ys =>
          simp only [List.isEmpty_cons, List.isEmpty_nil, if_true, Bool.false_eq_true, if_false] at h
          rw [renderItems] at h
          simp [line] at h
      | cons x xs =>
        cases ys with
        | nil =>
          simp only [List.isEmpty_cons, List.isEmpty_nil, if_true, Bool.false_eq_true, if_false] at h
          rw [renderItems] at h
          simp [line] at h
        | cons y ys =>
          simp only [List.isEmpty_cons, Bool.false_eq_true, if_false, List.cons_append, List.append_assoc,
            List.cons.injEq, true_and] at h
          obtain ⟨e, rfl⟩ := renderItems_inj (x :: xs) (y :: ys) (by decide) hx hy h
          exact ⟨by rw [e], rfl⟩
    | .tuple n xs, .tuple m ys =>
      rw [Dbg.Named] at hx hy
      rw [render, render] at h
      cases xs with
      | nil =>
        cases ys with
        | nil =>
          obtain ⟨rfl, rfl⟩ := span_unique hx.1 hy.1 (hl hr) (hl hr') h
          exact ⟨rfl, rfl⟩
        | cons y ys =>
          simp only [List.isEmpty_cons, List.isEmpty_nil, if_true, Bool.false_eq_true, if_false, List.append_assoc,
            List.cons_append] at h
          obtain ⟨-, rfl⟩ := span_unique hx.1 hy.1 (hl hr) (open_ (v := [])).1 h
          rcases hr with hr | ⟨c, t, e, hc⟩
          · cases hr
          · obtain ⟨rfl, -⟩ := List.cons.inj e
            rcases hc with hc | hc <;> cases hc
      | cons x xs =>
        cases ys with
        | nil =>
          simp only [List.isEmpty_cons, List.isEmpty_nil, if_true, Bool.false_eq_true, if_false, List.append_assoc,
            List.cons_append] at h
          obtain ⟨-, e⟩ := span_unique hx.1 hy.1 (open_ (v := [])).1 (hl hr') h
          subst e
          rcases hr' with hr | ⟨c, t, e, hc⟩
          · cases hr
          · obtain ⟨rfl, -⟩ := List.cons.inj e
            rcases hc with hc | hc <;> cases hc
        | cons y ys =>
          simp only [List.isEmpty_cons, Bool.false_eq_true, if_false, List.append_assoc, List.cons_append] at h
          obtain ⟨rfl, h'⟩ := span_unique hx.1 hy.1 (open_ (v := [])).1 (open_ (v := [])).1 h
          obtain ⟨e, rfl⟩ := renderItems_inj (x :: xs) (y :: ys) (by decide) hx.2.2 hy.2.2 (List.cons.inj h').2
          exact ⟨by rw [e], rfl⟩
    | .struct n xs, .struct m ys =>
      rw [Dbg.Named] at hx hy
      rw [render, render] at h
      simp only [List.append_assoc, List.cons_append, List.nil_append] at h
      obtain ⟨rfl, h'⟩ := span_unique hx.1 hy.1 (open_ (u := [])).2 (open_ (u := [])).2 h
      obtain ⟨e, rfl⟩ := renderFields_inj xs ys (by decide) hx.2.2 hy.2.2 (List.cons.inj (List.cons.inj h').2).2
      exact ⟨by rw [e], rfl⟩
    | .tuple n xs, .struct m ys =>
      simp only [Dbg.Named] at hx hy
      rw [render, render] at h
      cases xs with
      | nil =>
        simp only [List.isEmpty_nil, if_true, List.append_assoc, List.cons_append] at h
        obtain ⟨-, rfl⟩ := span_unique hx.1 hy.1 (hl hr) (open_ (u := [])).2 h
        rcases hr with hr | ⟨c, t, e, hc⟩
        · cases hr
        · obtain ⟨rfl, -⟩ := List.cons.inj e
          rcases hc with hc | hc <;> cases hc
      | cons x xs =>
        simp only [List.isEmpty_cons, Bool.false_eq_true, if_false, List.append_assoc, List.cons_append] at h
        obtain ⟨-, h'⟩ := span_unique hx.1 hy.1 (open_ (v := [])).1 (open_ (u := [])).2 h
        exact absurd (List.cons.inj h').1 (by decide)
    | .struct n xs, .tuple m ys =>
      simp only [Dbg.Named] at hx hy
      rw [render, render] at h
      cases ys with
      | nil =>
        simp only [List.isEmpty_nil, if_true, List.append_assoc, List.cons_append] at h
        obtain ⟨-, e⟩ := span_unique hx.1 hy.1 (open_ (u := [])).2 (hl hr') h
        subst e
        rcases hr' with hr | ⟨c, t, e, hc⟩
        · cases hr
        · obtain ⟨rfl, -⟩ := List.cons.inj e
          rcases hc with hc | hc <;> cases hc
      | cons y ys =>
        simp only [List.isEmpty_cons, Bool.false_eq_true, if_false, List.append_assoc, List.cons_append] at h
        obtain ⟨-, h'⟩ := span_unique hx.1 hy.1 (open_ (u := [])).2 (open_ (v := [])).1 h
        exact absurd (List.cons.inj h').1 (by decide)
theorem renderItems_inj {st : Style} : (xs ys : List Dbg) → {d : Nat} → {c : Char} → {r r' : Str} → c ≠ ' ' →
    NamedAll xs → NamedAll ys →
    renderItems st (d + 1) xs ++ (line d ++ c :: r) = renderItems st (d + 1) ys ++ (line d ++ c :: r') →
    xs = ys ∧ r = r'
  | [], [], d, c, r, r', hc, _, _, h => by
    have := line_inj (List.append_cancel_left h)
    exact ⟨rfl, (List.cons.inj this).2⟩
  | [], y :: ys, d, c, r, r', hc, _, _, h => by
    rw [renderItems, renderItems] at h
    simp only [List.append_assoc, List.nil_append] at h
    exact absurd h (line_ne hc)
  | x :: xs, [], d, c, r, r', hc, _, _, h => by
    rw [renderItems, renderItems] at h
    simp only [List.append_assoc, List.nil_append] at h
    exact absurd h.symm (line_ne hc)
  | x :: xs, y :: ys, d, c, r, r', hc, hx, hy, h => by
    rw [NamedAll] at hx hy
    rw [renderItems, renderItems] at h
    simp only [List.append_assoc] at h
    obtain ⟨rfl, h1⟩ := render_inj x y hx.1 hy.1 (items_ends st _ _ d _ (renderItems_head st _ xs))
      (items_ends st _ _ d _ (renderItems_head st _ ys)) (line_inj h)
    have h2 := comma_inj (fun e => by rw [e, renderItems]) (fun e => by rw [e, renderItems]) h1
    obtain ⟨rfl, rfl⟩ := renderItems_inj xs ys hc hx.2 hy.2 h2
    exact ⟨rfl, rfl⟩
theorem renderFields_inj {st : Style} : (xs ys : List (Str × Dbg)) → {d : Nat} → {c : Char} → {r r' : Str} → c ≠ ' ' →
    NamedFields xs → NamedFields ys →
    renderFields st (d + 1) xs ++ (line d ++ c :: r) = renderFields st (d + 1) ys ++ (line d ++ c :: r') →
    xs = ys ∧ r = r'
  | [], [], d, c, r, r', hc, _, _, h => by
    have := line_inj (List.append_cancel_left h)
    exact ⟨rfl, (List.cons.inj this).2⟩
  | [], (m, y) :: ys, d, c, r, r', hc, _, _, h => by
    rw [renderFields, renderFields] at h
    simp only [List.append_assoc, List.nil_append] at h
    exact absurd h (line_ne hc)
  | (n, x) :: xs, [], d, c, r, r', hc, _, _, h => by
    rw [renderFields, renderFields] at h
    simp only [List.append_assoc, List.nil_append] at h
    exact absurd h.symm (line_ne hc)
  | (n, x) :: xs, (m, y) :: ys, d, c, r, r', hc, hx, hy, h => by
    rw [NamedFields] at hx hy
    rw [renderFields, renderFields] at h
    simp only [List.append_assoc] at h
    have colon : ∀ {u : Str}, NotNext isLetter (c!": " ++ u) := by
      intro u c t e
      obtain ⟨rfl, -⟩ := List.cons.inj e
      rfl
    obtain ⟨rfl, h1⟩ := span_unique hx.1 hy.1 colon colon (line_inj h)
    obtain ⟨rfl, h2⟩ := render_inj x y hx.2.1 hy.2.1 (items_ends st _ _ d _ (renderFields_head st _ xs))
      (items_ends st _ _ d _ (renderFields_head st _ ys)) (List.append_cancel_left h1)
    have h3 := comma_inj (fun e => by rw [e, renderFields]) (fun e => by rw [e, renderFields]) h2
    obtain ⟨rfl, rfl⟩ := renderFields_inj xs ys hc hx.2.2 hy.2.2 h3
    exact ⟨rfl, rfl⟩
end

end ElmParser
