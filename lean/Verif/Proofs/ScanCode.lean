import Verif.Spec.Code
import Verif.Proofs.ScanPlain

/-! Brackets and neighbours outside literals and comments. -/
namespace ElmParser
open Spec

theorem scanFrom_append {kw : Bool} {σ : Scan} {a b : Str} :
    scanFrom kw σ (a ++ b) = (scanFrom kw σ a).bind fun τ => scanFrom kw τ b := by
  induction a generalizing σ with
  | nil => cases σ <;> rfl
  | cons c a ih =>
    cases σ with
    | unclear =>
      cases b with
      | nil => rw [List.append_nil]; rfl
      | cons d b => rfl
    | «at» p k =>
      change (stepAt kw p k c).bind _ = ((stepAt kw p k c).bind _).bind _
      cases stepAt kw p k c with
      | none => rfl
      | some τ => exact ih

theorem scanFrom_unclear {kw : Bool} (s : Str) : scanFrom kw .unclear s = some .unclear := by cases s <;> rfl

/-- A step outside literals and comments: what happens to the stack, and when the position is after a brace. -/
structure CodeStep (k : List Char) (x : Char) (p' : Pos) (k' : List Char) : Prop where
  stack : Stack k x k'
  notDash : p' ≠ .braceDash
  brace : p' = .brace ↔ x = '{'

theorem codeStep_same {k : List Char} {x : Char} {p' : Pos} (hx : ¬ Bracket x) (h1 : p' ≠ .braceDash) (h2 : p' ≠ .brace) :
    CodeStep k x p' k :=
  ⟨stack_same hx, h1, fun h => absurd h h2, fun h => absurd (by subst h; decide) hx⟩

theorem codeStep_closeAt {x k p' k'} (h : closeAt x k = some (.at p' k')) (hx : (opener x).isSome) : CodeStep k x p' k' := by
  obtain ⟨p, l, e, hs⟩ := closeAt_stepped (y := none) h hx
  cases e
  refine ⟨hs.stack, ?_, ?_⟩
  · rintro rfl; exact hs.follows
  · constructor
    · rintro rfl
      exact Option.some.inj hs.follows
    · rintro rfl; cases hx

theorem codeStep_openAt {x k p' k'} (h : openAt x k = some (.at p' k')) : CodeStep k x p' k' := by
  unfold openAt at h
  by_cases e1 : x = '('
  · subst e1; cases h
    exact ⟨.inl ⟨by decide, rfl⟩, nofun, nofun, fun h => absurd h (by decide)⟩
  rw [if_neg e1] at h
  by_cases e2 : x = '['
  · subst e2; cases h
    exact ⟨.inl ⟨by decide, rfl⟩, nofun, nofun, fun h => absurd h (by decide)⟩
  rw [if_neg e2] at h
  by_cases e3 : x = '{'
  · subst e3; cases h
    exact ⟨.inl ⟨by decide, rfl⟩, nofun, fun _ => rfl, fun _ => rfl⟩
  rw [if_neg e3] at h
  by_cases e4 : x = '"'
  · subst e4; cases h
    exact codeStep_same (by decide) nofun nofun
  rw [if_neg e4] at h
  by_cases e5 : x = '\''
  · subst e5; cases h
    exact codeStep_same (by decide) nofun nofun
  rw [if_neg e5] at h
  cases h

theorem codeStep_gap {x k p' k'} (h : afterGap x k = some (.at p' k')) : CodeStep k x p' k' := by
  unfold afterGap at h
  by_cases hw : White x ∨ x = ','
  · rw [if_pos hw] at h; cases h; exact codeStep_same (white_notBracket hw) nofun nofun
  rw [if_neg hw] at h
  by_cases hi : IdentChar x
  · rw [if_pos hi] at h; cases h; exact codeStep_same (ident_notBracket hi) nofun nofun
  rw [if_neg hi] at h
  by_cases ho : OpChar x
  · rw [if_pos ho] at h; cases h; exact codeStep_same (op_notBracket ho) nofun nofun
  rw [if_neg ho] at h
  by_cases hc : (opener x).isSome
  · rw [if_pos hc] at h; exact codeStep_closeAt h hc
  rw [if_neg hc] at h
  exact codeStep_openAt h

/-- What the scanner allows after a complete token. -/
theorem afterToken_cases {x k τ} (h : afterToken x k = some τ) :
    (White x ∨ x = ',') ∧ τ = .at .gap k ∨ x = '-' ∧ τ = .at .dash k ∨
    (x = '.' ∨ (inBraces k = true ∧ x ∈ ['=', ':', '|'])) ∧ τ = .at (.op false [x]) k ∨
    (opener x).isSome ∧ closeAt x k = some τ := by
  unfold afterToken at h
  by_cases hw : White x ∨ x = ','
  · rw [if_pos hw] at h; cases h; exact .inl ⟨hw, rfl⟩
  rw [if_neg hw] at h
  by_cases hd : x = '-'
  · rw [if_pos hd] at h; cases h; exact .inr (.inl ⟨hd, rfl⟩)
  rw [if_neg hd] at h
  by_cases ho : x = '.' ∨ (inBraces k = true ∧ x ∈ ['=', ':', '|'])
  · rw [if_pos ho] at h; cases h; exact .inr (.inr (.inl ⟨ho, rfl⟩))
  rw [if_neg ho] at h
  by_cases hc : (opener x).isSome
  · rw [if_pos hc] at h; exact .inr (.inr (.inr ⟨hc, h⟩))
  · rw [if_neg hc] at h; cases h

theorem codeStep_token {x k p' k'} (h : afterToken x k = some (.at p' k')) : CodeStep k x p' k' := by
  rcases afterToken_cases h with ⟨hw, e⟩ | ⟨rfl, e⟩ | ⟨ho, e⟩ | ⟨hc, e⟩
  · cases e; exact codeStep_same (white_notBracket hw) nofun nofun
  · cases e; exact codeStep_same (by decide) nofun nofun
  · cases e
    refine codeStep_same ?_ nofun nofun
    rcases ho with rfl | ⟨-, ho⟩
    · decide
    · simp only [List.mem_cons, List.not_mem_nil, or_false] at ho
      rcases ho with rfl | rfl | rfl <;> decide
  · exact codeStep_closeAt e hc

theorem codeStep_op {q w x k p' k'} (h : afterOp q w x k = some (.at p' k')) : CodeStep k x p' k' := by
  unfold afterOp at h
  by_cases hw : White x
  · rw [if_pos hw] at h
    split at h
    · cases h
    · cases h; exact codeStep_same (white_notBracket (.inl hw)) nofun nofun
  rw [if_neg hw] at h
  by_cases hi : IdentChar x
  · rw [if_pos hi] at h
    split at h
    · cases h; exact codeStep_same (ident_notBracket hi) nofun nofun
    · cases h
  rw [if_neg hi] at h
  by_cases ho : OpChar x
  · rw [if_pos ho] at h
    split at h
    · split at h
      · cases h; exact codeStep_same (op_notBracket ho) nofun nofun
      · cases h
    · cases h; exact codeStep_same (op_notBracket ho) nofun nofun
  rw [if_neg ho] at h
  by_cases hc : (opener x).isSome
  · rw [if_pos hc] at h
    split at h
    · exact codeStep_closeAt h hc
    · cases h
  rw [if_neg hc] at h
  split at h
  · exact codeStep_openAt h
  · cases h

/-- One step at a place in the code. -/
theorem codeStep {p k x p' k'} (hp : p.code = true) (hb : p = .brace → x ≠ '-') (h : stepAt false p k x = some (.at p' k')) :
    CodeStep k x p' k' := by
  cases p with
  | gap => exact codeStep_gap h
  | paren =>
    change (if OpChar x then _ else _) = _ at h
    by_cases ho : OpChar x
    · rw [if_pos ho] at h; cases h; exact codeStep_same (op_notBracket ho) nofun nofun
    · rw [if_neg ho] at h; exact codeStep_gap h
  | brace =>
    change (if x = '-' then _ else _) = _ at h
    rw [if_neg (hb rfl)] at h
    exact codeStep_gap h
  | word w =>
    change (if IdentChar x then _ else (some k).bind fun k => if x = '(' then _ else _) = _ at h
    by_cases hi : IdentChar x
    · rw [if_pos hi] at h; cases h; exact codeStep_same (ident_notBracket hi) nofun nofun
    rw [if_neg hi] at h
    change (if x = '(' then _ else _) = _ at h
    by_cases hp : x = '('
    · rw [if_pos hp] at h; exact codeStep_openAt h
    · rw [if_neg hp] at h; exact codeStep_token h
  | closed => exact codeStep_token h
  | quotes =>
    change (if x = '"' then _ else _) = _ at h
    by_cases hq : x = '"'
    · rw [if_pos hq] at h; cases h; subst hq; exact codeStep_same (by decide) nofun nofun
    · rw [if_neg hq] at h; exact codeStep_token h
  | op q w => exact codeStep_op h
  | _ => cases hp

/-- One step inside a literal or a comment. -/
theorem textStep {p k x p' k'} (hp : p.code = false) (hb : p ≠ .braceDash) (h : stepAt false p k x = some (.at p' k')) :
    k' = k ∧ p' ≠ .brace ∧ p' ≠ .braceDash := by
  cases p with
  | gap | paren | brace | word | closed | quotes | op => cases hp
  | braceDash => exact absurd rfl hb
  | _ =>
    simp only [stepAt] at h
    repeat' split at h
    all_goals first
      | (cases h; done)
      | (cases h; exact ⟨rfl, nofun, nofun⟩)

/-- The brackets that are open, leaving out the brace of a block comment. -/
def openIn (p : Pos) (k : List Char) (s : Str) : List Char :=
  match p with
  | .braceDash => k.tail
  | .brace => if s.head? = some '-' then k.tail else k
  | _ => k

theorem openIn_eq {p k s} (h1 : p ≠ .braceDash) (h2 : p = .brace → s.head? ≠ some '-') : openIn p k s = k := by
  cases p with
  | braceDash => exact absurd rfl h1
  | brace => exact if_neg (h2 rfl)
  | _ => rfl

theorem code_closes {s : Str} : ∀ {p k p1 k1}, scanFrom false (.at p k) s = some (.at p1 k1) → Scan.final false (.at p1 k1) = true →
    closes (openIn p k s) (codeFrom (.at p k) s) = true := by
  induction s with
  | nil =>
    intro p k p1 k1 h hf
    cases h
    cases k with
    | nil => cases p <;> rfl
    | cons o k => cases p <;> cases hf
  | cons x s ih =>
    intro p k p1 k1 h hf
    change ((stepAt false p k x).bind fun σ => scanFrom false σ s) = _ at h
    cases hs : stepAt false p k x with
    | none => rw [hs] at h; cases h
    | some σ =>
      rw [hs] at h
      change scanFrom false σ s = _ at h
      cases σ with
      | unclear => rw [scanFrom_unclear] at h; cases h
      | «at» p' k' =>
        have ih := ih h hf
        have e : codeFrom (.at p k) (x :: s) = (if p.keeps x s then [x] else []) ++ codeFrom (.at p' k') s := by
          change (match stepAt false p k x with | none => [] | some σ => _) = _
          rw [hs]
        rw [e]
        by_cases hd : p = .braceDash
        · subst hd
          change (if x = '-' then _ else _) = _ at hs
          split at hs
          · cases hs
          · cases hs
            exact ih
        cases hp : p.code with
        | false =>
          obtain ⟨rfl, h1, h2⟩ := textStep hp hd hs
          have : p.keeps x s = false := by simp [Pos.keeps, hp]
          rw [this, openIn_eq hd (by rintro rfl; cases hp)]
          rwa [openIn_eq h2 fun h => absurd h h1] at ih
        | true =>
          by_cases hb : p = .brace ∧ x = '-'
          · obtain ⟨rfl, rfl⟩ := hb
            change some (Scan.at .braceDash k) = _ at hs
            cases hs
            have : Pos.keeps .brace '-' s = false := by simp [Pos.keeps]
            rw [this]
            exact ih
          have hc := codeStep hp (fun h1 h2 => hb ⟨h1, h2⟩) hs
          rw [openIn_eq hd (by rintro h1 h2; exact hb ⟨h1, Option.some.inj h2⟩)]
          by_cases hx : x = '{' ∧ s.head? = some '-'
          · have : p.keeps x s = false := by simp [Pos.keeps, hx]
            rw [this]
            have hb' := hc.brace.2 hx.1
            subst hb'
            rw [show openIn .brace k' s = k'.tail from if_pos hx.2] at ih
            rcases hc.stack with ⟨-, rfl⟩ | ⟨h1, -⟩ | ⟨h1, -⟩
            · exact ih
            · rw [hx.1] at h1; exact absurd h1 (by decide)
            · rw [hx.1] at h1; exact absurd h1 (by decide)
          · have : p.keeps x s = true := by
              unfold Pos.keeps
              rw [hp]
              simp only [Bool.true_and, Bool.and_eq_true, Bool.not_eq_true', Bool.and_eq_false_iff]
              constructor
              · by_cases h1 : x = '{'
                · right; simpa using fun h2 => hx ⟨h1, h2⟩
                · left; simpa using h1
              · split
                · simpa using fun h => hb ⟨rfl, h⟩
                · rfl
            rw [this]
            rw [openIn_eq hc.notDash fun h1 h2 => hx ⟨hc.brace.1 h1, h2⟩] at ih
            exact hc.stack.closes ih

/-- The step after a text. -/
theorem after_step {a b : Str} {x : Char} {p : Pos} {k : List Char} (h : scans (a ++ x :: b) = true) (ha : After a p k) :
    ∃ σ, stepAt false p k x = some σ ∧ ((scanFrom false σ b).map (Scan.final false)).getD false = true := by
  unfold scans scansWith at h
  rw [scanFrom_append, ha] at h
  change (((stepAt false p k x).bind fun σ => scanFrom false σ b).map (Scan.final false)).getD false = true at h
  cases hs : stepAt false p k x with
  | none => rw [hs] at h; cases h
  | some σ => rw [hs] at h; exact ⟨σ, rfl, h⟩

/-- What the position says about the last character. -/
structure LastIs (y : Char) (p : Pos) : Prop where
  word : IdentChar y → ∃ w, p = .word w
  op : OpChar y → ∃ q w, p = .op q w ∧ w.getLast? = some y
  closed : y ∈ [')', ']', '}'] → p = .closed

theorem lastIs_none {y p} (h1 : ¬ IdentChar y) (h2 : ¬ OpChar y) (h3 : y ∉ [')', ']', '}']) : LastIs y p :=
  ⟨fun h => absurd h h1, fun h => absurd h h2, fun h => absurd h h3⟩
theorem lastIs_word {y w} (h : IdentChar y) : LastIs y (.word w) :=
  ⟨fun _ => ⟨w, rfl⟩, fun h' => absurd h' (ident_notOp' h), fun h' => absurd h (closer_notOp h').2⟩
theorem lastIs_op {y q w} (h : OpChar y) : LastIs y (.op q (w ++ [y])) :=
  ⟨fun h' => absurd h (ident_notOp' h'), fun _ => ⟨q, _, rfl, by simp⟩, fun h' => absurd h (closer_notOp h').1⟩
theorem lastIs_closer {y} (h : y ∈ [')', ']', '}']) : LastIs y .closed :=
  ⟨fun h' => absurd h' (closer_notOp h).2, fun h' => absurd h' (closer_notOp h).1, fun _ => rfl⟩
theorem lastIs_white {y p} (h : White y ∨ y = ',') : LastIs y p := by
  apply lastIs_none <;> rcases h with (rfl | rfl | rfl | rfl) | rfl <;> decide

theorem opener_closer {y : Char} (h : (opener y).isSome) : y ∈ [')', ']', '}'] := by
  unfold opener at h
  by_cases h1 : y = ')'
  · simp [h1]
  by_cases h2 : y = ']'
  · simp [h2]
  by_cases h3 : y = '}'
  · simp [h3]
  rw [if_neg h1, if_neg h2, if_neg h3] at h
  cases h

theorem lastIs_closeAt {y k p k'} (h : closeAt y k = some (.at p k')) (hy : (opener y).isSome) : LastIs y p := by
  cases k with
  | nil => cases h
  | cons o k =>
    change (if opener y = some o then _ else _) = _ at h
    split at h
    · cases h; exact lastIs_closer (opener_closer hy)
    · cases h

theorem lastIs_openAt {y k p k'} (h : openAt y k = some (.at p k')) : LastIs y p := by
  unfold openAt at h
  by_cases e1 : y = '('
  · subst e1; exact lastIs_none (by decide) (by decide) (by decide)
  rw [if_neg e1] at h
  by_cases e2 : y = '['
  · subst e2; exact lastIs_none (by decide) (by decide) (by decide)
  rw [if_neg e2] at h
  by_cases e3 : y = '{'
  · subst e3; exact lastIs_none (by decide) (by decide) (by decide)
  rw [if_neg e3] at h
  by_cases e4 : y = '"'
  · subst e4; exact lastIs_none (by decide) (by decide) (by decide)
  rw [if_neg e4] at h
  by_cases e5 : y = '\''
  · subst e5; exact lastIs_none (by decide) (by decide) (by decide)
  rw [if_neg e5] at h
  cases h

theorem lastIs_gap {y k p k'} (h : afterGap y k = some (.at p k')) : LastIs y p := by
  unfold afterGap at h
  by_cases hw : White y ∨ y = ','
  · exact lastIs_white hw
  rw [if_neg hw] at h
  by_cases hi : IdentChar y
  · rw [if_pos hi] at h; cases h; exact lastIs_word hi
  rw [if_neg hi] at h
  by_cases ho : OpChar y
  · rw [if_pos ho] at h; cases h; exact lastIs_op (w := []) ho
  rw [if_neg ho] at h
  by_cases hc : (opener y).isSome
  · rw [if_pos hc] at h; exact lastIs_closeAt h hc
  rw [if_neg hc] at h
  exact lastIs_openAt h

theorem lastIs_token {y k p k'} (h : afterToken y k = some (.at p k')) (hp : p.code = true) : LastIs y p := by
  rcases afterToken_cases h with ⟨hw, -⟩ | ⟨rfl, e⟩ | ⟨ho, e⟩ | ⟨hc, e⟩
  · exact lastIs_white hw
  · cases e; cases hp
  · cases e
    refine lastIs_op (w := []) ?_
    rcases ho with rfl | ⟨-, ho⟩
    · decide
    · simp only [List.mem_cons, List.not_mem_nil, or_false] at ho
      rcases ho with rfl | rfl | rfl <;> decide
  · exact lastIs_closeAt e hc

theorem lastIs_afterOp {q w y k p k'} (h : afterOp q w y k = some (.at p k')) (hp : p.code = true) : LastIs y p := by
  unfold afterOp at h
  by_cases hw : White y
  · exact lastIs_white (.inl hw)
  rw [if_neg hw] at h
  by_cases hi : IdentChar y
  · rw [if_pos hi] at h
    split at h
    · cases h; exact lastIs_word hi
    · cases h
  rw [if_neg hi] at h
  by_cases ho : OpChar y
  · rw [if_pos ho] at h
    split at h
    · split at h
      · cases h; cases hp
      · cases h
    · cases h; exact lastIs_op ho
  rw [if_neg ho] at h
  by_cases hc : (opener y).isSome
  · rw [if_pos hc] at h
    split at h
    · exact lastIs_closeAt h hc
    · cases h
  rw [if_neg hc] at h
  split at h
  · exact lastIs_openAt h
  · cases h

theorem lastIs_step {p k y p' k'} (h : stepAt false p k y = some (.at p' k')) (hp : p'.code = true) : LastIs y p' := by
  have quote : ∀ {c : Char} {q : Pos}, c = '"' ∨ c = '\'' ∨ c = '\n' → LastIs c q := by
    rintro c q (rfl | rfl | rfl) <;> exact lastIs_none (by decide) (by decide) (by decide)
  cases p with
  | gap => exact lastIs_gap h
  | paren =>
    change (if OpChar y then _ else _) = _ at h
    by_cases ho : OpChar y
    · rw [if_pos ho] at h; cases h; exact lastIs_op (w := []) ho
    · rw [if_neg ho] at h; exact lastIs_gap h
  | brace =>
    change (if y = '-' then _ else _) = _ at h
    split at h
    · cases h; cases hp
    · exact lastIs_gap h
  | word w =>
    change (if IdentChar y then _ else (some k).bind fun k => if y = '(' then _ else _) = _ at h
    by_cases hi : IdentChar y
    · rw [if_pos hi] at h; cases h; exact lastIs_word hi
    rw [if_neg hi] at h
    change (if y = '(' then _ else _) = _ at h
    split at h
    · exact lastIs_openAt h
    · exact lastIs_token h hp
  | closed => exact lastIs_token h hp
  | quotes =>
    change (if y = '"' then _ else _) = _ at h
    split at h
    · cases h; cases hp
    · exact lastIs_token h hp
  | op q w => exact lastIs_afterOp h hp
  | blockDash =>
    change (if y = '}' then _ else _) = _ at h
    split at h
    · cases h; rename_i e; subst e; exact lastIs_closer (by decide)
    · split at h <;> (cases h; cases hp)
  | _ =>
    simp only [stepAt] at h
    repeat' split at h
    all_goals first
      | (cases h; done)
      | (cases h; cases hp; done)
      | (rename_i e _; exact quote (by simp [e]))
      | (rename_i e; exact quote (by simp [e]))

/-- Which characters can be neighbours in the code. -/
theorem neighbours_step {b : Str} {y x : Char} {p : Pos} {k : List Char} {σ : Scan} (hy : LastIs y p) (h : stepAt false p k x = some σ)
    (hb : ((scanFrom false σ b).map (Scan.final false)).getD false = true) :
    Neighbours (inBraces k = true) y x ∨ (x = '-' ∧ ∃ b', b = '-' :: b') := by
  have dash : σ = .at .dash k → ∃ b', b = '-' :: b' := by
    rintro rfl
    cases b with
    | nil => cases hb
    | cons c b =>
      by_cases hc : c = '-'
      · exact ⟨b, by rw [hc]⟩
      · change (((if c = '-' then _ else none : Option Scan).bind _).map _).getD false = true at hb
        rw [if_neg hc] at hb
        cases hb
  have tok : ∀ {x}, afterToken x k = some σ → (¬ (IdentChar x ∨ x ∈ ['(', '[', '{'])) ∧
      ((OpChar x → x = '.' ∨ (inBraces k = true ∧ x ∈ ['=', ':', '|'])) ∨ (x = '-' ∧ ∃ b', b = '-' :: b')) := by
    intro x h
    obtain ⟨-, -, -, h4⟩ := afterToken_stepped (y := none) h
    refine ⟨h4, ?_⟩
    rcases afterToken_cases h with ⟨hw, -⟩ | ⟨rfl, e⟩ | ⟨ho, -⟩ | ⟨hc, -⟩
    · exact .inl fun ho => absurd ho (by rcases hw with (rfl | rfl | rfl | rfl) | rfl <;> decide)
    · exact .inr ⟨rfl, dash e⟩
    · exact .inl fun _ => ho
    · exact .inl fun ho => absurd ho (closer_notOp (opener_closer hc)).1
  by_cases hi : IdentChar y
  · obtain ⟨w, rfl⟩ := hy.word hi
    have mk : ¬ (x ∈ ['[', '{']) → (OpChar x → x = '.' ∨ (inBraces k = true ∧ x ∈ ['=', ':', '|'])) → Neighbours (inBraces k = true) y x :=
      fun h1 h2 => ⟨fun _ => h2, fun ho => absurd ho (ident_notOp' hi), fun h => absurd hi (closer_notOp h).2, fun _ => h1⟩
    change (if IdentChar x then _ else (some k).bind fun k => if x = '(' then _ else _) = _ at h
    by_cases hx : IdentChar x
    · exact .inl (mk (fun h => (open_notOp (List.mem_cons_of_mem _ h)).2.1 hx) fun ho => absurd ho (ident_notOp' hx))
    rw [if_neg hx] at h
    change (if x = '(' then _ else _) = _ at h
    by_cases hp : x = '('
    · subst hp; exact .inl (mk (by decide) fun ho => absurd ho (by decide))
    rw [if_neg hp] at h
    obtain ⟨h1, h2 | h2⟩ := tok h
    · exact .inl (mk (fun h => h1 (.inr (List.mem_cons_of_mem _ h))) h2)
    · exact .inr h2
  by_cases hc : y ∈ [')', ']', '}']
  · obtain rfl := hy.closed hc
    obtain ⟨h1, h2 | h2⟩ := tok h
    · exact .inl ⟨fun _ => h2, fun ho => absurd ho (closer_notOp hc).1, fun _ => h1, fun h => absurd h hi⟩
    · exact .inr h2
  by_cases ho : OpChar y
  · obtain ⟨q, w, rfl, hl⟩ := hy.op ho
    refine .inl ⟨fun h => absurd h (by rintro (h | h); exact hi h; exact hc h), fun _ hx => ?_, fun h => absurd h hc, fun h => absurd h hi⟩
    change afterOp q w x k = _ at h
    unfold afterOp at h
    have hw : ¬ White x := by
      rcases hx with hx | hx
      · rintro (rfl | rfl | rfl | rfl) <;> revert hx <;> decide
      · exact (open_notOp hx).2.2.1
    rw [if_neg hw] at h
    by_cases hxi : IdentChar x
    · rw [if_pos hxi] at h
      split at h
      · rename_i hg
        obtain ⟨z, hz, hz'⟩ := gluesWord_last hg
        rw [hl] at hz; cases hz
        exact hz'
      · cases h
    rw [if_neg hxi] at h
    obtain ⟨h1, -, -, h4⟩ := open_notOp (hx.resolve_left hxi)
    rw [if_neg h1, h4] at h
    simp only [Option.isSome_none, Bool.false_eq_true, if_false] at h
    split at h
    · rename_i hg
      obtain ⟨z, hz, hz'⟩ := gluesOpen_last hg
      rw [hl] at hz; cases hz
      rcases hz' with e | e
      · exact .inr (.inl e)
      · exact .inr (.inr (.inr e))
    · cases h
  · exact .inl ⟨fun h => absurd h (by rintro (h | h); exact hi h; exact hc h), fun h => absurd h ho, fun h => absurd h hc, fun h => absurd h hi⟩

theorem after_last {a : Str} {y : Char} {p : Pos} {k : List Char} (h : After (a ++ [y]) p k) (hp : p.code = true) : LastIs y p := by
  unfold After at h
  rw [scanFrom_append] at h
  cases ha : scanFrom false (.at .gap []) a with
  | none => rw [ha] at h; cases h
  | some σ =>
    rw [ha] at h
    cases σ with
    | unclear => cases h
    | «at» p0 k0 =>
      change ((stepAt false p0 k0 y).bind fun σ => scanFrom false σ []) = _ at h
      cases hs : stepAt false p0 k0 y with
      | none => rw [hs] at h; cases h
      | some τ =>
        rw [hs] at h
        have h : scanFrom false τ [] = some (.at p k) := h
        cases τ with
        | unclear => cases h
        | «at» => cases h; exact lastIs_step hs hp

end ElmParser
