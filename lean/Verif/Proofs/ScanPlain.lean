import Verif.Spec.Nested

/-! What the scanner of Spec/Scan.lean accepts, for texts without literals and comments. -/
namespace ElmParser
open Spec

/-- Reading a text with the stack of open brackets. -/
def closes : List Char → Str → Bool
  | k, [] => k.isEmpty
  | k, c :: s =>
    if c ∈ ['(', '[', '{'] then closes (c :: k) s
    else match opener c with
      | none => closes k s
      | some o => match k with
        | [] => false
        | o' :: k => if o = o' then closes k s else false

theorem closes_nested_aux : ∀ (n : Nat) (s : Str) (k : List Char), s.length ≤ n → closes k s = true →
    match k with
    | [] => Nested s
    | o :: k => ∃ a c t, s = a ++ c :: t ∧ Nested a ∧ Partners o c ∧ closes k t = true := by
  intro n
  induction n with
  | zero =>
    intro s k hs h
    cases s with
    | nil => cases k with
      | nil => exact .nil
      | cons o k => cases h
    | cons c s => simp at hs
  | succ n ih =>
    intro s k hs h
    cases s with
    | nil => cases k with
      | nil => exact .nil
      | cons o k => cases h
    | cons c s =>
      have hs' : s.length ≤ n := by simp at hs; exact hs
      unfold closes at h
      by_cases hc : c ∈ ['(', '[', '{']
      · rw [if_pos hc] at h
        obtain ⟨a, d, t, rfl, ha, hp, ht⟩ := ih s (c :: k) hs' h
        have hl : t.length ≤ n := by
          have := hs'; simp at this; omega
        cases k with
        | nil => exact .pair hp ha (ih t [] hl ht)
        | cons o k =>
          obtain ⟨a', d', t', rfl, ha', hp', ht'⟩ := ih t (o :: k) hl ht
          exact ⟨c :: (a ++ d :: a'), d', t', by simp, .pair hp ha ha', hp', ht'⟩
      · rw [if_neg hc] at h
        cases ho : opener c with
        | none =>
          rw [ho] at h
          have hb : ¬ Bracket c := by
            intro hb
            unfold Bracket at hb
            simp only [List.mem_cons, List.not_mem_nil, or_false] at hb
            rcases hb with rfl | rfl | rfl | rfl | rfl | rfl <;> first | exact hc (by decide) | (cases ho; done)
          have := ih s k hs' h
          cases k with
          | nil => exact .char hb this
          | cons o k =>
            obtain ⟨a, d, t, rfl, ha, hp, ht⟩ := this
            exact ⟨c :: a, d, t, rfl, .char hb ha, hp, ht⟩
        | some o =>
          rw [ho] at h
          cases k with
          | nil => cases h
          | cons o' k =>
            by_cases he : o = o'
            · subst he
              simp only [if_true] at h
              refine ⟨[], c, s, rfl, .nil, ?_, h⟩
              unfold opener at ho
              by_cases h1 : c = ')'
              · subst h1; cases ho; decide
              by_cases h2 : c = ']'
              · subst h2; cases ho; decide
              by_cases h3 : c = '}'
              · subst h3; cases ho; decide
              rw [if_neg h1, if_neg h2, if_neg h3] at ho
              cases ho
            · simp only [if_neg he] at h
              cases h

theorem closes_nested {s : Str} (h : closes [] s = true) : Nested s := closes_nested_aux s.length s [] (Nat.le_refl _) h

/-- The last character read, and the position. -/
def Follows : Option Char → Pos → Prop
  | y, .gap => ∀ c, y = some c → White c ∨ c = ',' ∨ c = '['
  | y, .paren => y = some '('
  | y, .brace => y = some '{'
  | y, .word _ => ∃ c, y = some c ∧ IdentChar c
  | y, .closed => ∃ c, y = some c ∧ c ∈ [')', ']', '}']
  | y, .op _ w => w.getLast? = y ∧ ∃ c, y = some c ∧ OpChar c
  | y, .dash => y = some '-'
  | _, _ => False

/-- What reading `c` does to the stack. -/
def Stack (k : List Char) (c : Char) (k' : List Char) : Prop :=
  (c ∈ ['(', '[', '{'] ∧ k' = c :: k) ∨
  (c ∉ ['(', '[', '{'] ∧ ∃ o, opener c = some o ∧ k = o :: k') ∨
  (c ∉ ['(', '[', '{'] ∧ opener c = none ∧ k' = k)

/-- The pairs of neighbours, `p` being the character before the text. -/
def Pairs (B : Prop) : Option Char → Str → Prop
  | _, [] => True
  | p, x :: s => (∀ y, p = some y → Neighbours B y x) ∧ Pairs B (some x) s

theorem Stack.closes {k c k' s} (h : Stack k c k') (hs : closes k' s = true) : ElmParser.closes k (c :: s) = true := by
  unfold ElmParser.closes
  rcases h with ⟨h, rfl⟩ | ⟨h, o, ho, rfl⟩ | ⟨h, ho, rfl⟩
  · rw [if_pos h]; exact hs
  · rw [if_neg h, ho]
    show (if o = o then _ else _) = _
    rw [if_pos rfl]; exact hs
  · rw [if_neg h, ho]; exact hs

theorem stack_same {k c} (h : ¬ Bracket c) : Stack k c k := by
  unfold Bracket at h
  refine .inr (.inr ⟨fun h' => h ?_, ?_, rfl⟩)
  · simp only [List.mem_cons, List.not_mem_nil, or_false] at h' ⊢
    rcases h' with rfl | rfl | rfl <;> simp
  · unfold opener
    rw [if_neg fun e => h (by simp [e]), if_neg fun e => h (by simp [e]), if_neg fun e => h (by simp [e])]

theorem white_notBracket {c} (h : White c ∨ c = ',') : ¬ Bracket c := by
  rcases h with (rfl | rfl | rfl | rfl) | rfl <;> decide
theorem op_notBracket {c} (h : OpChar c) : ¬ Bracket c := by
  have : ∀ d ∈ ['+', '-', '/', '*', '=', '.', '$', '<', '>', ':', '&', '|', '^', '?', '%', '#', '@', '~',
    '!', '\\'], ¬ Bracket d := by decide
  exact this c h
theorem ident_notBracket {c} (h : IdentChar c) : ¬ Bracket c := by
  intro h'
  have : ∀ d ∈ ['(', ')', '[', ']', '{', '}'], ¬ IdentChar d := by decide
  exact this c h' h

/-- The facts about one step. -/
structure Stepped (y : Option Char) (k : List Char) (x : Char) (p' : Pos) (k' : List Char) : Prop where
  follows : Follows (some x) p'
  stack : Stack k x k'
  word : IdentChar x → p' = .word [x]
  noWord : ¬ IdentChar x → ∀ w, p' ≠ .word w

theorem closer_notIdent {x : Char} (h : x ∈ [')', ']', '}']) : ¬ IdentChar x := by
  simp only [List.mem_cons, List.not_mem_nil, or_false] at h
  rcases h with rfl | rfl | rfl <;> decide

theorem closeAt_stepped {x k τ y} (h : closeAt x k = some τ) (hx : (opener x).isSome) :
    ∃ p' k', τ = .at p' k' ∧ Stepped y k x p' k' := by
  cases k with
  | nil => cases h
  | cons o k =>
    change (if opener x = some o then _ else _) = _ at h
    by_cases ho : opener x = some o
    · rw [if_pos ho] at h
      cases h
      have hc : x ∈ [')', ']', '}'] := by
        unfold opener at ho
        by_cases h1 : x = ')'
        · simp [h1]
        by_cases h2 : x = ']'
        · simp [h2]
        by_cases h3 : x = '}'
        · simp [h3]
        rw [if_neg h1, if_neg h2, if_neg h3] at ho
        cases ho
      refine ⟨_, _, rfl, ⟨x, rfl, hc⟩, .inr (.inl ⟨?_, o, ho, rfl⟩), fun h => absurd h (closer_notIdent hc), nofun⟩
      simp only [List.mem_cons, List.not_mem_nil, or_false] at hc ⊢
      rcases hc with rfl | rfl | rfl <;> decide
    · rw [if_neg ho] at h
      cases h

theorem openAt_stepped {x k τ y} (h : openAt x k = some τ) (h1 : x ≠ '"') (h2 : x ≠ '\'') :
    ∃ p' k', τ = .at p' k' ∧ Stepped y k x p' k' := by
  unfold openAt at h
  by_cases e1 : x = '('
  · subst e1; cases h
    exact ⟨_, _, rfl, rfl, .inl ⟨by decide, rfl⟩, fun h => absurd h (by decide), nofun⟩
  rw [if_neg e1] at h
  by_cases e2 : x = '['
  · subst e2; cases h
    exact ⟨_, _, rfl, fun c hc => .inr (.inr (Option.some.inj hc).symm), .inl ⟨by decide, rfl⟩, fun h => absurd h (by decide), nofun⟩
  rw [if_neg e2] at h
  by_cases e3 : x = '{'
  · subst e3; cases h
    exact ⟨_, _, rfl, rfl, .inl ⟨by decide, rfl⟩, fun h => absurd h (by decide), nofun⟩
  rw [if_neg e3, if_neg h1, if_neg h2] at h
  cases h

theorem white_stepped {x k y} (h : White x ∨ x = ',') : Stepped y k x .gap k :=
  ⟨fun c hc => by cases hc; exact h.imp id .inl, stack_same (white_notBracket h), fun hi => absurd hi (by rcases h with (rfl | rfl | rfl | rfl) | rfl <;> decide), nofun⟩
theorem ident_stepped {x k y} (h : IdentChar x) : Stepped y k x (.word [x]) k :=
  ⟨⟨x, rfl, h⟩, stack_same (ident_notBracket h), fun _ => rfl, fun h' => absurd h h'⟩
theorem ident_notOp' {c : Char} (h : IdentChar c) : ¬ OpChar c := by
  intro h'
  have : ∀ d ∈ ['+', '-', '/', '*', '=', '.', '$', '<', '>', ':', '&', '|', '^', '?', '%', '#', '@', '~',
    '!', '\\'], ¬ IdentChar d := by decide
  exact this c h' h

theorem op_stepped {x k y q w} (h : OpChar x) : Stepped y k x (.op q (w ++ [x])) k :=
  ⟨⟨by simp, x, rfl, h⟩, stack_same (op_notBracket h), fun hi => absurd h (ident_notOp' hi), nofun⟩

theorem afterGap_stepped {x k τ y} (h : afterGap x k = some τ) (h1 : x ≠ '"') (h2 : x ≠ '\'') :
    ∃ p' k', τ = .at p' k' ∧ Stepped y k x p' k' := by
  unfold afterGap at h
  by_cases hw : White x ∨ x = ','
  · rw [if_pos hw] at h; cases h; exact ⟨_, _, rfl, white_stepped hw⟩
  rw [if_neg hw] at h
  by_cases hi : IdentChar x
  · rw [if_pos hi] at h; cases h; exact ⟨_, _, rfl, ident_stepped hi⟩
  rw [if_neg hi] at h
  by_cases ho : OpChar x
  · rw [if_pos ho] at h; cases h; exact ⟨_, _, rfl, op_stepped (w := []) ho⟩
  rw [if_neg ho] at h
  by_cases hc : (opener x).isSome
  · rw [if_pos hc] at h; exact closeAt_stepped h hc
  rw [if_neg hc] at h
  exact openAt_stepped h h1 h2

theorem afterToken_stepped {x k τ y} (h : afterToken x k = some τ) :
    (∃ p' k', τ = .at p' k' ∧ Stepped y k x p' k') ∧
      (OpChar x → x = '.' ∨ x = '-' ∨ (inBraces k = true ∧ x ∈ ['=', ':', '|'])) ∧
      (x = '-' → ∃ k', τ = .at .dash k') ∧ ¬ (IdentChar x ∨ x ∈ ['(', '[', '{']) := by
  unfold afterToken at h
  have e1 : ∀ x, IdentChar x ∨ x ∈ ['(', '[', '{'] → ¬ (White x ∨ x = ',') ∧ x ≠ '-' ∧ ¬ (x = '.' ∨ (inBraces k = true ∧ x ∈ ['=', ':', '|'])) ∧ opener x = none := by
    intro x hx
    have h1 : ∀ d, ¬ IdentChar d → d ∉ ['(', '[', '{'] → x ≠ d := fun d h1 h2 e => hx.elim (fun h => h1 (e ▸ h)) fun h => h2 (e ▸ h)
    refine ⟨?_, h1 _ (by decide) (by decide), ?_, ?_⟩
    · rintro ((e | e | e | e) | e) <;> exact h1 _ (by decide) (by decide) e
    · rintro (e | ⟨-, e⟩)
      · exact h1 _ (by decide) (by decide) e
      · simp only [List.mem_cons, List.not_mem_nil, or_false] at e
        rcases e with e | e | e <;> exact h1 _ (by decide) (by decide) e
    · unfold opener
      rw [if_neg (h1 _ (by decide) (by decide)), if_neg (h1 _ (by decide) (by decide)), if_neg (h1 _ (by decide) (by decide))]
  have e2 : ¬ (IdentChar x ∨ x ∈ ['(', '[', '{']) := by
    intro hx
    obtain ⟨h1, h2, h3, h4⟩ := e1 x hx
    rw [if_neg h1, if_neg h2, if_neg h3, h4] at h
    cases h
  refine (and_assoc.1 (and_assoc.1 ⟨?_, e2⟩))
  by_cases hw : White x ∨ x = ','
  · rw [if_pos hw] at h; cases h
    refine ⟨⟨⟨_, _, rfl, white_stepped hw⟩, fun ho => ?_⟩, fun e => ?_⟩
    · exfalso; rcases hw with (rfl | rfl | rfl | rfl) | rfl <;> revert ho <;> decide
    · exfalso; subst e; revert hw; decide
  rw [if_neg hw] at h
  by_cases hd : x = '-'
  · rw [if_pos hd] at h; cases h
    subst hd
    exact ⟨⟨⟨_, _, rfl, rfl, stack_same (by decide), fun h => absurd h (by decide), nofun⟩, fun _ => .inr (.inl rfl)⟩, fun _ => ⟨_, rfl⟩⟩
  rw [if_neg hd] at h
  by_cases ho : x = '.' ∨ (inBraces k = true ∧ x ∈ ['=', ':', '|'])
  · rw [if_pos ho] at h; cases h
    have hop : OpChar x := by
      rcases ho with rfl | ⟨-, ho⟩
      · decide
      · simp only [List.mem_cons, List.not_mem_nil, or_false] at ho
        rcases ho with rfl | rfl | rfl <;> decide
    exact ⟨⟨⟨_, _, rfl, op_stepped (w := []) hop⟩, fun _ => ho.imp id .inr⟩, fun e => absurd e hd⟩
  rw [if_neg ho] at h
  by_cases hc : (opener x).isSome
  · rw [if_pos hc] at h
    refine ⟨⟨closeAt_stepped h hc, fun hop => ?_⟩, fun e => absurd e hd⟩
    exfalso
    have : ∀ d ∈ ['+', '-', '/', '*', '=', '.', '$', '<', '>', ':', '&', '|', '^', '?', '%', '#', '@', '~',
      '!', '\\'], (opener d).isSome = false := by decide
    rw [this x hop] at hc
    cases hc
  rw [if_neg hc] at h
  cases h

theorem afterEquals_last {b w v} (h : afterEquals b w = v) (hv : v ≠ []) : w.getLast? = v.getLast? := by
  unfold afterEquals at h
  split at h
  · rename_i u
    cases b with
    | false => rw [← h]; rfl
    | true =>
      subst h
      cases u with
      | nil => exact absurd rfl hv
      | cons a u => rfl
  · rw [h]

theorem gluesWord_last {b w c} (h : gluesWord b w c = true) :
    ∃ y, w.getLast? = some y ∧ (y = '.' ∨ y = '\\' ∨ (y ∈ ['+', '-'] ∧ Digit c) ∨ (b = true ∧ y ∈ ['=', ':', '|'])) := by
  simp only [gluesWord, Bool.or_eq_true, Bool.and_eq_true, beq_iff_eq, decide_eq_true_eq] at h
  rcases h with ⟨hb, (rfl | rfl) | rfl⟩ | ((e | e) | e) | ⟨hd, ((e | e) | e) | e⟩
  · exact ⟨_, rfl, .inr (.inr (.inr ⟨hb, by decide⟩))⟩
  · exact ⟨_, rfl, .inr (.inr (.inr ⟨hb, by decide⟩))⟩
  · exact ⟨_, rfl, .inr (.inr (.inr ⟨hb, by decide⟩))⟩
  · exact ⟨_, afterEquals_last e (by simp), .inl rfl⟩
  · exact ⟨_, afterEquals_last e (by simp), .inr (.inl rfl)⟩
  · exact ⟨_, afterEquals_last e (by simp), .inl rfl⟩
  · exact ⟨_, afterEquals_last e (by simp), .inr (.inr (.inl ⟨by decide, hd⟩))⟩
  · exact ⟨_, afterEquals_last e (by simp), .inr (.inr (.inl ⟨by decide, hd⟩))⟩
  · exact ⟨_, afterEquals_last e (by simp), .inr (.inr (.inl ⟨by decide, hd⟩))⟩
  · exact ⟨_, afterEquals_last e (by simp), .inr (.inr (.inl ⟨by decide, hd⟩))⟩

theorem gluesOpen_last {b w} (h : gluesOpen b w = true) :
    ∃ y, w.getLast? = some y ∧ (y = '\\' ∨ (b = true ∧ y ∈ ['=', ':', '|'])) := by
  simp only [gluesOpen, Bool.or_eq_true, Bool.and_eq_true, beq_iff_eq] at h
  rcases h with ⟨hb, rfl | rfl⟩ | e
  · exact ⟨_, rfl, .inr ⟨hb, by decide⟩⟩
  · exact ⟨_, rfl, .inr ⟨hb, by decide⟩⟩
  · exact ⟨_, afterEquals_last e (by simp), .inl rfl⟩

theorem open_notOp {x : Char} (h : x ∈ ['(', '[', '{']) : ¬ OpChar x ∧ ¬ IdentChar x ∧ ¬ White x ∧ opener x = none := by
  simp only [List.mem_cons, List.not_mem_nil, or_false] at h
  rcases h with rfl | rfl | rfl <;> decide

theorem closer_notOp {y : Char} (h : y ∈ [')', ']', '}']) : ¬ OpChar y ∧ ¬ IdentChar y := by
  simp only [List.mem_cons, List.not_mem_nil, or_false] at h
  rcases h with rfl | rfl | rfl <;> decide

/-- What is open when the token before has ended. -/
def ended (kw : Bool) (p : Pos) (k : List Char) : Option (List Char) :=
  match p with
  | .word w => endWord kw w k
  | _ => some k

/-- A word goes on, or the token before has ended. -/
def Moved (kw : Bool) (y : Option Char) (p : Pos) (k : List Char) (x : Char) (p' : Pos) (k' : List Char) : Prop :=
  (∃ w, p = .word w ∧ IdentChar x ∧ p' = .word (w ++ [x]) ∧ k' = k) ∨
  ∃ k1, ended kw p k = some k1 ∧ Stepped y k1 x p' k' ∧ (IdentChar x → ∀ w, p ≠ .word w)

theorem endWord_brace {kw w k k1} (h : endWord kw w k = some k1) (hm : '{' ∈ k1) : '{' ∈ k := by
  unfold endWord at h
  cases kw with
  | false => cases h; exact hm
  | true =>
    simp only [if_true] at h
    have ho : ∀ {k' k1 : List Char}, (match wordOpens w with | none => k' | some o => o :: k') = k1 → '{' ∈ k1 → '{' ∈ k' := by
      intro k' k1 e hm
      unfold wordOpens at e
      by_cases e1 : w = c!"let"
      · rw [if_pos e1] at e; subst e; exact (List.mem_cons.1 hm).resolve_left (by decide)
      rw [if_neg e1] at e
      by_cases e2 : w = c!"case"
      · rw [if_pos e2] at e; subst e; exact (List.mem_cons.1 hm).resolve_left (by decide)
      rw [if_neg e2] at e
      by_cases e3 : w = c!"if"
      · rw [if_pos e3] at e; subst e; exact (List.mem_cons.1 hm).resolve_left (by decide)
      rw [if_neg e3] at e
      by_cases e4 : w = c!"then"
      · rw [if_pos e4] at e; subst e; exact (List.mem_cons.1 hm).resolve_left (by decide)
      rw [if_neg e4] at e
      subst e; exact hm
    obtain ⟨k', hk', e⟩ := Option.map_eq_some_iff.1 h
    have hk := ho e hm
    cases hc : wordCloses w with
    | none => rw [hc] at hk'; cases hk'; exact hk
    | some o =>
      rw [hc] at hk'
      cases k with
      | nil => cases hk'
      | cons o' k =>
        change (if o = o' then _ else _) = _ at hk'
        split at hk'
        · cases hk'; exact List.mem_cons_of_mem _ hk
        · cases hk'

/-- One step at a place outside literals and comments. -/
theorem plain_step {kw : Bool} {B : Prop} {y p k x τ} (hf : Follows y p) (hk : ¬ B → '{' ∉ k) (h : stepAt kw p k x = some τ)
    (h1 : x ≠ '"') (h2 : x ≠ '\'') (hd : y = some '-' → x ≠ '-') (hb : y = some '{' → x ≠ '-') :
    (∃ p' k', τ = .at p' k' ∧ Moved kw y p k x p' k') ∧
      (∀ c, y = some c → Neighbours B c x ∨ (x = '-' ∧ ∃ k', τ = .at .dash k')) := by
  have hB : ∀ {k}, (¬ B → '{' ∉ k) → inBraces k = true → B := by
    intro k hk hi
    by_cases hB : B
    · exact hB
    · cases k with
      | nil => cases hi
      | cons o k =>
        unfold inBraces at hi
        split at hi
        · rename_i e
          exact absurd (by rw [← (List.cons.inj e).1]; simp : '{' ∈ o :: k) (hk hB)
        · cases hi
  -- a token has ended
  have mv : ended kw p k = some k → (∀ w, p ≠ .word w) → (∃ p' k', τ = .at p' k' ∧ Stepped y k x p' k') →
      ∃ p' k', τ = .at p' k' ∧ Moved kw y p k x p' k' := fun h1 h2 ⟨p', k', e, h⟩ => ⟨p', k', e, .inr ⟨k, h1, h, fun _ => h2⟩⟩
  -- when the character before is white space, a comma or an opening bracket, there is nothing to show
  have free : ∀ c, (¬ OpChar c ∧ ¬ IdentChar c ∧ c ∉ [')', ']', '}']) → Neighbours B c x := fun c hc =>
    ⟨fun h => absurd h (by rintro (h | h); exact hc.2.1 h; exact hc.2.2 h), fun h => absurd h hc.1,
      fun h => absurd h hc.2.2, fun h => absurd h hc.2.1⟩
  cases p with
  | gap =>
    refine ⟨mv rfl nofun (afterGap_stepped h h1 h2), fun c hc => .inl (free c ?_)⟩
    rcases hf c hc with (rfl | rfl | rfl | rfl) | rfl | rfl <;> decide
  | paren =>
    obtain rfl : y = some '(' := hf
    refine ⟨mv rfl nofun ?_, fun c hc => .inl (free c ?_)⟩
    · change (if OpChar x then _ else _) = _ at h
      by_cases ho : OpChar x
      · rw [if_pos ho] at h; cases h; exact ⟨_, _, rfl, op_stepped (w := []) ho⟩
      · rw [if_neg ho] at h; exact afterGap_stepped h h1 h2
    · cases hc; decide
  | brace =>
    obtain rfl : y = some '{' := hf
    refine ⟨mv rfl nofun ?_, fun c hc => .inl (free c ?_)⟩
    · change (if x = '-' then _ else _) = _ at h
      rw [if_neg (hb rfl)] at h; exact afterGap_stepped h h1 h2
    · cases hc; decide
  | word w =>
    obtain ⟨c, rfl, hc⟩ := hf
    change (if IdentChar x then _ else (endWord kw w k).bind fun k => if x = '(' then _ else _) = _ at h
    by_cases hi : IdentChar x
    · rw [if_pos hi] at h; cases h
      refine ⟨⟨_, _, rfl, .inl ⟨w, rfl, hi, rfl, rfl⟩⟩, fun c' e => ?_⟩
      cases e
      refine .inl ⟨fun _ ho => absurd ho (ident_notOp' hi), fun ho => absurd ho (ident_notOp' hc), fun h => absurd hc (closer_notOp h).2, fun _ h => ?_⟩
      simp only [List.mem_cons, List.not_mem_nil, or_false] at h
      rcases h with rfl | rfl <;> revert hi <;> decide
    rw [if_neg hi] at h
    cases he : endWord kw w k with
    | none => rw [he] at h; cases h
    | some k1 =>
    rw [he] at h
    change (if x = '(' then _ else _) = _ at h
    have mv : (∃ p' k', τ = .at p' k' ∧ Stepped (some c) k1 x p' k') → ∃ p' k', τ = .at p' k' ∧ Moved kw (some c) (.word w) k x p' k' :=
      fun ⟨p', k', e, h⟩ => ⟨p', k', e, .inr ⟨k1, he, h, fun h => absurd h hi⟩⟩
    have hk : ¬ B → '{' ∉ k1 := fun h1 h2 => hk h1 (endWord_brace he h2)
    by_cases hp : x = '('
    · rw [if_pos hp] at h
      refine ⟨mv (openAt_stepped h h1 h2), fun c' e => ?_⟩
      cases e; subst hp
      exact .inl ⟨fun _ ho => absurd ho (by decide), fun ho => absurd ho (ident_notOp' hc), fun h => absurd hc (closer_notOp h).2, fun _ => by decide⟩
    rw [if_neg hp] at h
    obtain ⟨h3, h4, h5, h6⟩ := afterToken_stepped (y := some c) h
    refine ⟨mv h3, fun c' e => ?_⟩
    cases e
    by_cases hx : x = '-'
    · exact .inr ⟨hx, h5 hx⟩
    · refine .inl ⟨fun _ ho => ?_, fun ho => absurd ho (ident_notOp' hc), fun h => absurd hc (closer_notOp h).2, fun _ hm => h6 (.inr (List.mem_cons_of_mem _ hm))⟩
      rcases h4 ho with e | e | ⟨e, e'⟩
      · exact .inl e
      · exact absurd e hx
      · exact .inr ⟨hB hk e, e'⟩
  | closed =>
    obtain ⟨c, rfl, hc⟩ := hf
    obtain ⟨h3, h4, h5, h6⟩ := afterToken_stepped (y := some c) h
    refine ⟨mv rfl nofun h3, fun c' e => ?_⟩
    cases e
    by_cases hx : x = '-'
    · exact .inr ⟨hx, h5 hx⟩
    · refine .inl ⟨fun _ ho => ?_, fun ho => absurd ho (closer_notOp hc).1, fun _ => h6, fun h => absurd h (closer_notOp hc).2⟩
      rcases h4 ho with e | e | ⟨e, e'⟩
      · exact .inl e
      · exact absurd e hx
      · exact .inr ⟨hB hk e, e'⟩
  | op q w =>
    obtain ⟨rfl, c, hl, hc⟩ := hf
    have nb : ∀ (h : IdentChar x ∨ x ∈ ['(', '[', '{'] → c = '.' ∨ c = '\\' ∨ (c ∈ ['+', '-'] ∧ Digit x) ∨ (B ∧ c ∈ ['=', ':', '|'])),
        Neighbours B c x := fun h =>
      ⟨fun h' => absurd hc (h'.elim (fun h => ident_notOp' h) fun h => (closer_notOp h).1), fun _ => h,
        fun h => absurd hc (closer_notOp h).1, fun h => absurd hc (ident_notOp' h)⟩
    have nb' : ∀ (h : ¬ (IdentChar x ∨ x ∈ ['(', '[', '{'])), ∀ c', w.getLast? = some c' → Neighbours B c' x ∨ (x = '-' ∧ ∃ k', τ = .at .dash k') := by
      intro h c' e
      rw [hl] at e; cases e
      exact .inl (nb fun h' => absurd h' h)
    change afterOp q w x k = _ at h
    unfold afterOp at h
    by_cases hw : White x
    · rw [if_pos hw] at h
      refine ⟨mv rfl nofun ?_, nb' ?_⟩
      · by_cases he : w = c!"."
        · rw [if_pos he] at h; cases h
        · rw [if_neg he] at h; cases h; exact ⟨_, _, rfl, white_stepped (.inl hw)⟩
      · rintro (hi | hi)
        · rcases hw with rfl | rfl | rfl | rfl <;> revert hi <;> decide
        · exact (open_notOp hi).2.2.1 hw
    rw [if_neg hw] at h
    by_cases hi : IdentChar x
    · rw [if_pos hi] at h
      by_cases hg : gluesWord (inBraces k) w x = true
      · rw [if_pos hg] at h; cases h
        refine ⟨mv rfl nofun ⟨_, _, rfl, ident_stepped hi⟩, fun c' e => .inl ?_⟩
        rw [hl] at e; cases e
        obtain ⟨z, hz, hz'⟩ := gluesWord_last hg
        rw [hl] at hz; cases hz
        refine nb fun _ => ?_
        rcases hz' with e | e | e | ⟨e, e'⟩
        · exact .inl e
        · exact .inr (.inl e)
        · exact .inr (.inr (.inl e))
        · exact .inr (.inr (.inr ⟨hB hk e, e'⟩))
      · rw [if_neg hg] at h; cases h
    rw [if_neg hi] at h
    by_cases ho : OpChar x
    · rw [if_pos ho] at h
      refine ⟨mv rfl nofun ?_, nb' ?_⟩
      · rw [if_neg fun e => hd e.2 e.1] at h
        cases h
        exact ⟨_, _, rfl, op_stepped ho⟩
      · rintro (h | h)
        · exact hi h
        · exact (open_notOp h).1 ho
    rw [if_neg ho] at h
    by_cases hcl : (opener x).isSome
    · rw [if_pos hcl] at h
      refine ⟨mv rfl nofun ?_, nb' ?_⟩
      · by_cases hp : q = true ∨ w = c!".."
        · rw [if_pos hp] at h
          exact closeAt_stepped h hcl
        · rw [if_neg hp] at h; cases h
      · rintro (h | h)
        · exact hi h
        · rw [(open_notOp h).2.2.2] at hcl; cases hcl
    rw [if_neg hcl] at h
    by_cases hg : gluesOpen (inBraces k) w = true
    · rw [if_pos hg] at h
      refine ⟨mv rfl nofun (openAt_stepped h h1 h2), fun c' e => .inl ?_⟩
      rw [hl] at e; cases e
      obtain ⟨z, hz, hz'⟩ := gluesOpen_last hg
      rw [hl] at hz; cases hz
      refine nb fun _ => ?_
      rcases hz' with e | ⟨e, e'⟩
      · exact .inr (.inl e)
      · exact .inr (.inr (.inr ⟨hB hk e, e'⟩))
    · rw [if_neg hg] at h; cases h
  | dash =>
    exfalso
    change (if x = '-' then _ else _) = _ at h
    rw [if_neg (hd hf)] at h
    cases h
  | _ => exact absurd hf id

/-- The text does not start with two dashes or `{-`, the character before included, and contains none. -/
def NoDash : Option Char → Str → Prop
  | _, [] => True
  | y, x :: s => (y = some '-' → x ≠ '-') ∧ (y = some '{' → x ≠ '-') ∧ NoDash (some x) s

theorem noDash_of {s : Str} (h1 : ∀ a b, s ≠ a ++ c!"--" ++ b) (h2 : ∀ a b, s ≠ a ++ c!"{-" ++ b) : NoDash none s := by
  have : ∀ (t a : Str) (y : Char), s = a ++ y :: t → NoDash (some y) t := by
    intro t
    induction t with
    | nil => exact fun _ _ _ => trivial
    | cons x t ih =>
      intro a y e
      refine ⟨fun e1 e2 => ?_, fun e1 e2 => ?_, ih (a ++ [y]) x (by rw [e]; simp)⟩
      · cases e1; subst e2; exact h1 a t (by rw [e]; simp)
      · cases e1; subst e2; exact h2 a t (by rw [e]; simp)
  cases s with
  | nil => trivial
  | cons x s => exact ⟨nofun, nofun, this s [] x rfl⟩

theorem Moved.brace {kw y p k x p' k'} (h : Moved kw y p k x p' k') (hx : x ≠ '{') (hm : '{' ∈ k') : '{' ∈ k := by
  rcases h with ⟨-, -, -, -, rfl⟩ | ⟨k1, h1, h2, -⟩
  · exact hm
  · have : '{' ∈ k1 := by
      rcases h2.stack with ⟨-, rfl⟩ | ⟨-, o, -, rfl⟩ | ⟨-, -, rfl⟩
      · exact (List.mem_cons.1 hm).resolve_left fun e => hx e.symm
      · exact List.mem_cons_of_mem _ hm
      · exact hm
    unfold ended at h1
    split at h1
    · exact endWord_brace h1 this
    · cases h1; exact this

/-- The steps over a text outside literals and comments. -/
theorem plain_induct {kw : Bool} {B : Prop} {M : Pos → List Char → Str → Prop}
    (last : ∀ {p k}, Scan.final kw (.at p k) = true → M p k [])
    (more : ∀ {y p k x p' k' s}, Moved kw y p k x p' k' → M p' k' s → M p k (x :: s)) {s : Str} :
    ∀ {y p k}, Follows y p → (¬ B → '{' ∉ k) → (¬ B → '{' ∉ s) → NoDash y s →
    '"' ∉ s → '\'' ∉ s → ((scanFrom kw (.at p k) s).map (Scan.final kw)).getD false = true →
    M p k s ∧ Pairs B y s ∧ p ≠ .dash := by
  induction s with
  | nil =>
    intro y p k hf _ _ _ _ _ h
    exact ⟨last h, trivial, by rintro rfl; cases h⟩
  | cons x s ih =>
    intro y p k hf hk hbs hnd hq hc h
    obtain ⟨hn1, hn2, hn3⟩ := hnd
    change (((stepAt kw p k x).bind fun σ => scanFrom kw σ s).map (Scan.final kw)).getD false = true at h
    cases hs : stepAt kw p k x with
    | none => rw [hs] at h; cases h
    | some τ =>
      rw [hs] at h
      obtain ⟨⟨p', k', rfl, hst⟩, hnb⟩ := plain_step hf hk hs (fun e => hq (by simp [e])) (fun e => hc (by simp [e])) hn1 hn2
      have hk' : ¬ B → '{' ∉ k' := fun hB hm => hk hB (hst.brace (fun e => hbs hB (by simp [e])) hm)
      have hf' : Follows (some x) p' := by
        rcases hst with ⟨-, -, hi, rfl, -⟩ | ⟨_, -, h', -⟩
        · exact ⟨x, rfl, hi⟩
        · exact h'.follows
      obtain ⟨i1, i2, i3⟩ := ih hf' hk' (fun hB hm => hbs hB (List.mem_cons_of_mem _ hm)) hn3
        (fun e => hq (by simp [e])) (fun e => hc (by simp [e])) h
      refine ⟨more hst i1, ⟨fun c e => ?_, i2⟩, ?_⟩
      · rcases hnb c e with h | ⟨-, k'', h⟩
        · exact h
        · cases h; exact absurd rfl i3
      · rintro rfl
        change (if x = '-' then _ else _) = _ at hs
        rw [if_neg (hn1 hf)] at hs
        cases hs

theorem ended_false {p k} : ended false p k = some k := by
  unfold ended
  split <;> rfl

theorem plain_run {B : Prop} {s : Str} {y p k} (hf : Follows y p) (hk : ¬ B → '{' ∉ k) (hs : ¬ B → '{' ∉ s) (hd : NoDash y s)
    (hq : '"' ∉ s) (hc : '\'' ∉ s) (h : ((scanFrom false (.at p k) s).map (Scan.final false)).getD false = true) :
    closes k s = true ∧ Pairs B y s ∧ p ≠ .dash := by
  refine plain_induct (M := fun _ k s => closes k s = true) ?_ ?_ hf hk hs hd hq hc h
  · intro p k h
    cases k with
    | nil => rfl
    | cons o k => cases p <;> cases h
  · intro y p k x p' k' s hm hs
    rcases hm with ⟨w, rfl, hi, rfl, rfl⟩ | ⟨k1, h1, h2, -⟩
    · exact (stack_same (ident_notBracket hi)).closes hs
    · rw [ended_false] at h1
      cases h1
      exact h2.stack.closes hs

theorem pairs_at {B : Prop} {s a b : Str} {y x : Char} {p : Option Char} (h : Pairs B p s) (e : s = a ++ y :: x :: b) :
    Neighbours B y x := by
  subst e
  induction a generalizing p with
  | nil => exact h.2.1 y rfl
  | cons c a ih => exact ih h.2

end ElmParser
