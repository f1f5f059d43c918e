import Verif.Spec.Scan
import Verif.Spec.Statements

/-! The scanner of Spec/Scan.lean on the layouts of the grammar. -/
namespace ElmParser
open Spec

variable {kw : Bool}

/-- The scanner gives up, or reads all of `c` and then `Q`. -/
def Go (kw : Bool) (p : Pos) (k : List Char) (c : Str) (Q : Pos → List Char → Prop) : Prop :=
  scanFrom kw (.at p k) c = some .unclear ∨ ∃ p' k', scanFrom kw (.at p k) c = some (.at p' k') ∧ Q p' k'

theorem scanFrom_unclear (s : Str) : scanFrom kw .unclear s = some .unclear := by cases s <;> rfl

theorem scanFrom_append {σ : Scan} {a b : Str} :
    scanFrom kw σ (a ++ b) = (scanFrom kw σ a).bind fun τ => scanFrom kw τ b := by
  induction a generalizing σ with
  | nil => rfl
  | cons c a ih =>
    cases σ with
    | unclear => rw [List.cons_append, scanFrom_unclear, scanFrom_unclear]; exact (scanFrom_unclear b).symm
    | «at» p k =>
      show (stepAt kw p k c).bind _ = ((stepAt kw p k c).bind _).bind _
      cases stepAt kw p k c with
      | none => rfl
      | some τ => exact ih

theorem Go.nil {p k} {Q : Pos → List Char → Prop} (h : Q p k) : Go kw p k [] Q := .inr ⟨p, k, rfl, h⟩

theorem Go.append {p k a b} {Q R : Pos → List Char → Prop} (h : Go kw p k a Q) (h' : ∀ p' k', Q p' k' → Go kw p' k' b R) :
    Go kw p k (a ++ b) R := by
  unfold Go
  rw [scanFrom_append]
  rcases h with h | ⟨p', k', h, hq⟩
  · rw [h]; exact .inl (scanFrom_unclear b)
  · rw [h]; exact h' _ _ hq

theorem Go.mono {p k a} {Q R : Pos → List Char → Prop} (h : Go kw p k a Q) (h' : ∀ p' k', Q p' k' → R p' k') :
    Go kw p k a R := h.imp id fun ⟨p', k', h, hq⟩ => ⟨p', k', h, h' _ _ hq⟩

theorem Go.cons {p k p' k' c s} {Q : Pos → List Char → Prop} (h : stepAt kw p k c = some (.at p' k')) (h' : Go kw p' k' s Q) :
    Go kw p k (c :: s) Q := by
  unfold Go scanFrom
  rw [h]
  exact h'

theorem Go.stop {p k c s} {Q : Pos → List Char → Prop} (h : stepAt kw p k c = some .unclear) : Go kw p k (c :: s) Q := by
  unfold Go scanFrom
  rw [h]
  exact .inl (scanFrom_unclear s)

/-! ### What positions take -/

/-- A word that is not matched. -/
def NoBlock (kw : Bool) (w : Str) : Prop := ∀ k, endWord kw w k = some k

theorem plain_word_of {w : Str} (h : w ∉ blockWords) : NoBlock kw w := by
  intro k
  have ne : ∀ v ∈ blockWords, w ≠ v := fun v hv e => h (e ▸ hv)
  have h1 : wordCloses w = none := by
    unfold wordCloses
    rw [if_neg (ne _ (by decide)), if_neg (ne _ (by decide)), if_neg (ne _ (by decide)), if_neg (ne _ (by decide))]
  have h2 : wordOpens w = none := by
    unfold wordOpens
    rw [if_neg (ne _ (by decide)), if_neg (ne _ (by decide)), if_neg (ne _ (by decide)), if_neg (ne _ (by decide))]
  unfold endWord
  rw [h1, h2]
  cases kw <;> rfl

theorem plain_keywords {w : Str} (h : w ∉ keywords) : NoBlock kw w :=
  plain_word_of fun hw => h ((by decide : ∀ v ∈ blockWords, v ∈ keywords) w hw)

/-- A complete token. -/
def TokEnd (kw : Bool) (k : List Char) (p : Pos) (k' : List Char) : Prop :=
  k' = k ∧ ((∃ w, p = .word w ∧ NoBlock kw w) ∨ p = .closed ∨ p = .quotes)
/-- A gap. -/
def InGap (k : List Char) (p : Pos) (k' : List Char) : Prop := k' = k ∧ p = .gap

def TakesWord (kw : Bool) (p : Pos) (k : List Char) : Prop := 
  ∀ c, IdentChar c → stepAt kw p k c = some (.at (.word [c]) k)
def TakesOpen (kw : Bool) (p : Pos) (k : List Char) : Prop :=
  ∀ c ∈ ['(', '[', '{', '"', '\''], stepAt kw p k c = openAt c k

/-- Positions where a term may start. -/
structure TermPos (kw : Bool) (p : Pos) (k : List Char) : Prop where
  word : TakesWord kw p k
  opens : TakesOpen kw p k
  sign : ∀ c ∈ ['+', '-'], ∃ q w, stepAt kw p k c = some (.at (.op q w) k) ∧
    ∀ d, Digit d → stepAt kw (.op q w) k d = some (.at (.word [d]) k)
  dot : ∃ q w, stepAt kw p k '.' = some (.at (.op q w) k) ∧ TakesWord kw (.op q w) k

/-- Positions where an expression may start. -/
structure ExprPos (kw : Bool) (p : Pos) (k : List Char) : Prop where
  term : TermPos kw p k
  fn : ∃ q w, stepAt kw p k '\\' = some (.at (.op q w) k) ∧ TermPos kw (.op q w) k

theorem identChar_range {c : Char} (h : IdentChar c) :
    (97 ≤ c.toNat ∧ c.toNat ≤ 122) ∨ (65 ≤ c.toNat ∧ c.toNat ≤ 90) ∨ (48 ≤ c.toNat ∧ c.toNat ≤ 57) ∨ c = '_' := h

theorem identChar_ne {c d : Char} (h : IdentChar c) (hd : ¬ IdentChar d) : c ≠ d := by
  rintro rfl; exact hd h

theorem ident_notWhite {c : Char} (h : IdentChar c) : ¬ (White c ∨ c = ',') := by
  rintro ((h' | h' | h' | h') | h') <;> subst h' <;> revert h <;> decide
theorem ident_notWhite' {c : Char} (h : IdentChar c) : ¬ White c := fun h' => ident_notWhite h (.inl h')
theorem ident_notOp {c : Char} (h : IdentChar c) : ¬ OpChar c := by
  intro h'
  have : ∀ d ∈ ['+', '-', '/', '*', '=', '.', '$', '<', '>', ':', '&', '|', '^', '?', '%', '#', '@', '~',
    '!', '\\'], ¬ IdentChar d := by decide
  exact this c h' h

theorem word_gap {k} : TakesWord kw .gap k := by
  intro c h
  show afterGap c k = _
  unfold afterGap
  rw [if_neg (ident_notWhite h), if_pos h]
theorem word_paren {k} : TakesWord kw .paren k := by
  intro c h
  show (if OpChar c then _ else afterGap c k) = _
  rw [if_neg (ident_notOp h)]
  exact word_gap (kw := kw) c h
theorem word_brace {k} : TakesWord kw .brace k := by
  intro c h
  show (if c = '-' then _ else afterGap c k) = _
  rw [if_neg (identChar_ne h (by decide))]
  exact word_gap (kw := kw) c h
theorem word_word {w k c} (h : IdentChar c) : stepAt kw (.word w) k c = some (.at (.word (w ++ [c])) k) := by
  show (if IdentChar c then _ else _) = _
  rw [if_pos h]
/-- A character that ends a word that is not matched. -/
theorem step_plain {w k c} (hw : NoBlock kw w) (hc : ¬ IdentChar c) :
    stepAt kw (.word w) k c = if c = '(' then openAt c k else afterToken c k := by
  show (if IdentChar c then _ else (endWord kw w k).bind _) = _
  rw [if_neg hc, hw k]
  rfl
theorem word_op {q w k} (hw : ∀ c, gluesWord (inBraces k) w c = true) : TakesWord kw (.op q w) k := by
  intro c h
  show afterOp q w c k = _
  unfold afterOp
  rw [if_neg (ident_notWhite' h), if_pos h, if_pos (hw c)]
theorem digit_op {q w k} (hw : ∀ c, Digit c → gluesWord (inBraces k) w c = true) {d} (h : Digit d) :
    stepAt kw (.op q w) k d = some (.at (.word [d]) k) := by
  have hi : IdentChar d := .inr (.inr (.inl h))
  show afterOp q w d k = _
  unfold afterOp
  rw [if_neg (ident_notWhite' hi), if_pos hi, if_pos (hw d h)]

theorem opens_gap {k} : TakesOpen kw .gap k := by
  intro c h
  simp only [List.mem_cons, List.not_mem_nil, or_false] at h
  rcases h with rfl | rfl | rfl | rfl | rfl <;> rfl
theorem opens_paren {k} : TakesOpen kw .paren k := by
  intro c h
  simp only [List.mem_cons, List.not_mem_nil, or_false] at h
  rcases h with rfl | rfl | rfl | rfl | rfl <;> rfl
theorem opens_op {q w k} (hw : gluesOpen (inBraces k) w = true) : TakesOpen kw (.op q w) k := by
  intro c h
  simp only [List.mem_cons, List.not_mem_nil, or_false] at h
  have : ∀ c, ¬ White c → ¬ IdentChar c → ¬ OpChar c → opener c = none → stepAt kw (.op q w) k c = openAt c k := by
    intro c h1 h2 h3 h4
    show afterOp q w c k = _
    unfold afterOp
    rw [if_neg h1, if_neg h2, if_neg h3, h4, if_neg (by simp), if_pos hw]
  rcases h with rfl | rfl | rfl | rfl | rfl <;> exact this _ (by decide) (by decide) (by decide) (by decide)

theorem gluesWord_dot {b c} : gluesWord b c!"." c = true := by cases b <;> simp [gluesWord, afterEquals]
theorem gluesWord_fn {b c} : gluesWord b c!"\\" c = true := by cases b <;> simp [gluesWord, afterEquals]
theorem gluesWord_fnDot {b c} : gluesWord b c!"\\." c = true := by cases b <;> simp [gluesWord, afterEquals]

theorem termPos_gap {k} : TermPos kw .gap k where
  word := word_gap
  opens := opens_gap
  sign := by
    intro c h
    simp only [List.mem_cons, List.not_mem_nil, or_false] at h
    rcases h with rfl | rfl
    · exact ⟨false, c!"+", rfl, fun d hd => digit_op (fun c hc => by cases inBraces k <;> simp [gluesWord, afterEquals, hc]) hd⟩
    · exact ⟨false, c!"-", rfl, fun d hd => digit_op (fun c hc => by cases inBraces k <;> simp [gluesWord, afterEquals, hc]) hd⟩
  dot := ⟨false, c!".", rfl, word_op fun _ => gluesWord_dot⟩
theorem termPos_paren {k} : TermPos kw .paren k where
  word := word_paren
  opens := opens_paren
  sign := by
    intro c h
    simp only [List.mem_cons, List.not_mem_nil, or_false] at h
    rcases h with rfl | rfl
    · exact ⟨true, c!"+", rfl, fun d hd => digit_op (fun c hc => by cases inBraces k <;> simp [gluesWord, afterEquals, hc]) hd⟩
    · exact ⟨true, c!"-", rfl, fun d hd => digit_op (fun c hc => by cases inBraces k <;> simp [gluesWord, afterEquals, hc]) hd⟩
  dot := ⟨true, c!".", rfl, word_op fun _ => gluesWord_dot⟩
theorem termPos_fn {q k} : TermPos kw (.op q c!"\\") k where
  word := word_op fun _ => gluesWord_fn
  opens := opens_op (by cases inBraces k <;> rfl)
  sign := by
    intro c h
    simp only [List.mem_cons, List.not_mem_nil, or_false] at h
    rcases h with rfl | rfl
    · exact ⟨q, c!"\\+", rfl, fun d hd => digit_op (fun c hc => by cases inBraces k <;> simp [gluesWord, afterEquals, hc]) hd⟩
    · exact ⟨q, c!"\\-", rfl, fun d hd => digit_op (fun c hc => by cases inBraces k <;> simp [gluesWord, afterEquals, hc]) hd⟩
  dot := ⟨q, c!"\\.", rfl, word_op fun _ => gluesWord_fnDot⟩
theorem termPos_eq {q k} (hk : inBraces k = true) : TermPos kw (.op q c!"=") k where
  word := word_op fun _ => by simp [gluesWord, hk]
  opens := opens_op (by simp [gluesOpen, hk])
  sign := by
    intro c h
    simp only [List.mem_cons, List.not_mem_nil, or_false] at h
    rcases h with rfl | rfl
    · exact ⟨q, c!"=+", rfl, fun d hd => digit_op (fun c hc => by simp [gluesWord, afterEquals, hc, hk]) hd⟩
    · exact ⟨q, c!"=-", rfl, fun d hd => digit_op (fun c hc => by simp [gluesWord, afterEquals, hc, hk]) hd⟩
  dot := ⟨q, c!"=.", rfl, word_op fun _ => by simp [gluesWord, afterEquals, hk]⟩
theorem termPos_eqFn {q k} (hk : inBraces k = true) : TermPos kw (.op q c!"=\\") k where
  word := word_op fun _ => by simp [gluesWord, afterEquals, hk]
  opens := opens_op (by simp [gluesOpen, afterEquals, hk])
  sign := by
    intro c h
    simp only [List.mem_cons, List.not_mem_nil, or_false] at h
    rcases h with rfl | rfl
    · exact ⟨q, c!"=\\+", rfl, fun d hd => digit_op (fun c hc => by simp [gluesWord, afterEquals, hc, hk]) hd⟩
    · exact ⟨q, c!"=\\-", rfl, fun d hd => digit_op (fun c hc => by simp [gluesWord, afterEquals, hc, hk]) hd⟩
  dot := ⟨q, c!"=\\.", rfl, word_op fun _ => by simp [gluesWord, afterEquals, hk]⟩

theorem exprPos_gap {k} : ExprPos kw .gap k := ⟨termPos_gap, false, c!"\\", rfl, termPos_fn⟩
theorem exprPos_paren {k} : ExprPos kw .paren k := ⟨termPos_paren, true, c!"\\", rfl, termPos_fn⟩
theorem exprPos_eq {q k} (hk : inBraces k = true) : ExprPos kw (.op q c!"=") k :=
  ⟨termPos_eq hk, q, c!"=\\", rfl, termPos_eqFn hk⟩

/-- Positions where a type may start. -/
structure TyPos (kw : Bool) (p : Pos) (k : List Char) : Prop where
  word : TakesWord kw p k
  opens : TakesOpen kw p k
theorem tyPos_gap {k} : TyPos kw .gap k := ⟨word_gap, opens_gap⟩
theorem tyPos_paren {k} : TyPos kw .paren k := ⟨word_paren, opens_paren⟩
theorem tyPos_colon {q k} (hk : inBraces k = true) : TyPos kw (.op q c!":") k :=
  ⟨word_op fun _ => by simp [gluesWord, hk], opens_op (by simp [gluesOpen, hk])⟩

/-! ### White space and gaps -/

/-- Positions after which white space or a gap may come, and what is open after it. -/
def GapAt (kw : Bool) (p : Pos) (k k' : List Char) : Prop :=
  (∃ w, p = .word w ∧ endWord kw w k = some k') ∨ (k' = k ∧
    (p = .gap ∨ p = .paren ∨ p = .brace ∨ p = .closed ∨ p = .quotes ∨ ∃ q w, p = .op q w ∧ w ≠ c!"." ∧ w ≠ []))

/-- The same, for positions that are not in a word that is matched. -/
def GapPos (kw : Bool) (p : Pos) : Prop := ∀ k, GapAt kw p k k

theorem gapPos_closed : GapPos kw .closed := fun _ => .inr ⟨rfl, .inr (.inr (.inr (.inl rfl)))⟩
theorem gapPos_plain {w} (h : NoBlock kw w) : GapPos kw (.word w) := fun k => .inl ⟨w, rfl, h k⟩

theorem TokEnd.gapPos {k p k'} (h : TokEnd kw k p k') : GapPos kw p := by
  rcases h with ⟨-, ⟨w, rfl, h⟩ | rfl | rfl⟩
  · exact gapPos_plain h
  · exact gapPos_closed
  · exact fun _ => .inr ⟨rfl, .inr (.inr (.inr (.inr (.inl rfl))))⟩

theorem gapPos_op {q w} (h : w ≠ c!".") (h' : w ≠ []) : GapPos kw (.op q w) :=
  fun _ => .inr ⟨rfl, .inr (.inr (.inr (.inr (.inr ⟨q, w, rfl, h, h'⟩))))⟩
theorem gapPos_gap : GapPos kw .gap := fun _ => .inr ⟨rfl, .inl rfl⟩
theorem gapPos_paren : GapPos kw .paren := fun _ => .inr ⟨rfl, .inr (.inl rfl)⟩
theorem gapPos_brace : GapPos kw .brace := fun _ => .inr ⟨rfl, .inr (.inr (.inl rfl))⟩

theorem step_whiteAt {p k k' c} (hp : GapAt kw p k k') (hc : White c) : stepAt kw p k c = some (.at .gap k') := by
  have h1 : ∀ k, afterGap c k = some (.at .gap k) := fun k => if_pos (.inl hc)
  have h2 : ∀ k, afterToken c k = some (.at .gap k) := fun k => if_pos (.inl hc)
  rcases hp with ⟨w, rfl, hw⟩ | ⟨rfl, rfl | rfl | rfl | rfl | rfl | ⟨q, w, rfl, hw, -⟩⟩
  · show (if IdentChar c then _ else (endWord kw w k).bind fun k => if c = '(' then _ else _) = _
    rw [if_neg (by rcases hc with rfl | rfl | rfl | rfl <;> decide), hw]
    show (if c = '(' then _ else _) = _
    rw [if_neg (by rcases hc with rfl | rfl | rfl | rfl <;> decide)]; exact h2 k'
  · exact h1 _
  · show (if OpChar c then _ else _) = _
    rw [if_neg (by rcases hc with rfl | rfl | rfl | rfl <;> decide)]; exact h1 _
  · show (if c = '-' then _ else _) = _
    rw [if_neg (by rcases hc with rfl | rfl | rfl | rfl <;> decide)]; exact h1 _
  · exact h2 _
  · show (if c = '"' then _ else _) = _
    rw [if_neg (by rcases hc with rfl | rfl | rfl | rfl <;> decide)]; exact h2 _
  · show afterOp q w c _ = _
    unfold afterOp
    rw [if_pos hc, if_neg hw]

theorem step_white {p k c} (hp : GapPos kw p) (hc : White c) : stepAt kw p k c = some (.at .gap k) := step_whiteAt (hp k) hc

theorem go_whitesAt {p k k' w} (hp : GapAt kw p k k') (hw : Whites w) :
    Go kw p k w fun p2 k2 => (w = [] ∧ p2 = p ∧ k2 = k) ∨ (w ≠ [] ∧ p2 = .gap ∧ k2 = k') := by
  induction w generalizing p k with
  | nil => exact .nil (.inl ⟨rfl, rfl, rfl⟩)
  | cons c w ih =>
    refine .cons (step_whiteAt hp (hw c (by simp))) ((ih (gapPos_gap k') fun x hx => hw x (by simp [hx])).mono ?_)
    rintro p2 k2 (⟨rfl, rfl, rfl⟩ | ⟨-, rfl, rfl⟩) <;> exact .inr ⟨by simp, rfl, rfl⟩

theorem go_whites {p k w} (hp : GapPos kw p) (hw : Whites w) : Go kw p k w fun p' k' => k' = k ∧ ((w = [] ∧ p' = p) ∨ (w ≠ [] ∧ p' = .gap)) :=
  (go_whitesAt (hp k) hw).mono fun p' k' h => by
    rcases h with ⟨h1, h2, h3⟩ | ⟨h1, h2, h3⟩
    · exact ⟨h3, .inl ⟨h1, h2⟩⟩
    · exact ⟨h3, .inr ⟨h1, h2⟩⟩

theorem go_whites1 {p k w} (hp : GapPos kw p) (hw : Whites w) (hne : w ≠ []) : Go kw p k w (InGap k) :=
  (go_whites hp hw).mono fun p' k' h => by
    rcases h with ⟨rfl, ⟨h, -⟩ | ⟨-, rfl⟩⟩
    · exact absurd h hne
    · exact ⟨rfl, rfl⟩

theorem Spec.SpacesTxt.whites {w} (h : SpacesTxt w) : Whites w := fun c hc => .inl (h.2 c hc)
theorem Spec.BlanksTxt.whites {w} (h : BlanksTxt w) : Whites w := fun c hc => (h.2 c hc).imp id .inl
theorem Spec.SpaceNl.whites {w} (h : SpaceNl w) : Whites w := fun c hc => (h.2 c hc).imp id fun h => .inr (.inr h)
theorem Spec.OptSpaceNl.whites {w} (h : OptSpaceNl w) : Whites w := fun c hc => (h c hc).imp id fun h => .inr (.inr h)
theorem Spec.OptSpaces.whites {w} (h : OptSpaces w) : Whites w := fun c hc => .inl (h c hc)
theorem whites_sp {n} : Whites (sp n) := fun _ hc => .inl (List.eq_of_mem_replicate hc)

theorem go_spaces {p k w} (hp : GapPos kw p) (h : SpacesTxt w) : Go kw p k w (InGap k) := go_whites1 hp h.whites h.1
theorem go_blanks {p k w} (hp : GapPos kw p) (h : BlanksTxt w) : Go kw p k w (InGap k) := go_whites1 hp h.whites h.1
theorem go_spaceNl {p k w} (hp : GapPos kw p) (h : SpaceNl w) : Go kw p k w (InGap k) := go_whites1 hp h.whites h.1

/-- The text of a line comment, after the dashes. -/
theorem go_comment {k t} (h : '\n' ∉ t) : Go kw .dashes k t fun p' k' => k' = k ∧ (p' = .dashes ∨ p' = .line) := by
  cases t with
  | nil => exact .nil ⟨rfl, .inl rfl⟩
  | cons c t =>
    have hc : c ≠ '\n' := fun e => h (by simp [e])
    by_cases ho : OpChar c
    · refine .stop ?_
      show (if c = '\n' then _ else if OpChar c then _ else _) = _
      rw [if_neg hc, if_pos ho]
    · refine .cons (p' := .line) (k' := k) ?_ ?_
      · show (if c = '\n' then _ else if OpChar c then _ else _) = _
        rw [if_neg hc, if_neg ho]
      · have ht : '\n' ∉ t := fun e => h (by simp [e])
        clear h hc ho
        induction t with
        | nil => exact .nil ⟨rfl, .inr rfl⟩
        | cons d t ih =>
          refine .cons (p' := .line) (k' := k) ?_ (ih fun e => ht (by simp [e]))
          show (if d = '\n' then _ else _) = _
          rw [if_neg fun e => ht (by simp [e])]

/-- Two dashes where a gap may come. -/
theorem go_dashes {p k k'} (hp : GapAt kw p k k') : Go kw p k c!"--" fun p2 k2 => k2 = k' ∧ p2 = .dashes := by
  rcases hp with ⟨w, rfl, hw⟩ | ⟨rfl, rfl | rfl | rfl | rfl | rfl | ⟨q, w, rfl, -, hw⟩⟩
  · refine .cons (p' := .dash) (k' := k') ?_ (.inr ⟨_, _, rfl, rfl, rfl⟩)
    show (endWord kw w k).bind _ = _
    rw [hw]
    rfl
  · exact .inr ⟨_, _, rfl, rfl, rfl⟩
  · exact .inl rfl
  · exact .inl rfl
  · exact .inr ⟨_, _, rfl, rfl, rfl⟩
  · exact .inr ⟨_, _, rfl, rfl, rfl⟩
  · by_cases hl : w.getLast? = some '-'
    · by_cases hx : w = c!"-" ∧ q = false
      · obtain ⟨rfl, rfl⟩ := hx
        exact .inl rfl
      · refine .stop ?_
        show afterOp q w '-' _ = _
        unfold afterOp
        rw [if_neg (by decide), if_neg (by decide), if_pos (by decide), if_pos ⟨rfl, hl⟩, if_neg hx]
    · refine .cons (p' := .op q (w ++ ['-'])) (k' := k') ?_ (.stop ?_)
      · show afterOp q w '-' _ = _
        unfold afterOp
        rw [if_neg (by decide), if_neg (by decide), if_pos (by decide), if_neg fun h => hl h.2]
      · show afterOp q (w ++ ['-']) '-' _ = _
        unfold afterOp
        rw [if_neg (by decide), if_neg (by decide), if_pos (by decide), if_pos ⟨rfl, by simp⟩, if_neg]
        rintro ⟨h, -⟩
        cases w with
        | nil => exact hw rfl
        | cons c w => cases w <;> simp at h

theorem go_gapText {p k k'} {ls : List Line} {n : Nat} (hp : GapAt kw p k k') (hok : ∀ l ∈ ls, l.ok) (hne : gapText ls ⟨n, none⟩ ≠ []) :
    Go kw p k (gapText ls ⟨n, none⟩) (InGap k') := by
  induction ls generalizing p k with
  | nil =>
    have hw : Whites (gapText [] ⟨n, none⟩) := by
      show Whites (sp n ++ [])
      rw [List.append_nil]
      exact whites_sp
    refine (go_whitesAt hp hw).mono fun p2 k2 h => ?_
    rcases h with ⟨h, -⟩ | ⟨-, rfl, rfl⟩
    · exact absurd h hne
    · exact ⟨rfl, rfl⟩
  | cons l ls ih =>
    have hl := hok l (by simp)
    have hrest : Go kw .gap k' (gapText ls ⟨n, none⟩) (InGap k') := by
      by_cases he : gapText ls ⟨n, none⟩ = []
      · rw [he]; exact .nil ⟨rfl, rfl⟩
      · exact ih (gapPos_gap k') (fun l hl => hok l (by simp [hl])) he
    show Go kw p k (sp l.spaces ++ commentText l.comment ++ '\n' :: gapText ls ⟨n, none⟩) _
    rw [List.append_assoc]
    refine (go_whitesAt hp whites_sp).append fun p2 k2 h => ?_
    have hp2 : GapAt kw p2 k2 k' := by
      rcases h with ⟨-, rfl, rfl⟩ | ⟨-, rfl, rfl⟩
      · exact hp
      · exact gapPos_gap _
    rcases l with ⟨m, _ | t⟩
    · exact .cons (step_whiteAt hp2 (.inr (.inr (.inr rfl)))) hrest
    · show Go kw p2 k2 (c!"--" ++ t ++ _) _
      rw [List.append_assoc]
      refine (go_dashes hp2).append fun p k h => ?_
      obtain ⟨rfl, rfl⟩ := h
      refine (go_comment (hl t rfl)).append fun p k h => ?_
      obtain ⟨rfl, rfl | rfl⟩ := h
      · exact .cons (p' := .gap) rfl hrest
      · exact .cons (p' := .gap) rfl hrest

theorem go_gapAt {p k k' ind ir i g} (hp : GapAt kw p k k') (h : GapTxt ind ir i g) : Go kw p k g (InGap k') := by
  obtain ⟨ls, n, rfl, hne, hok, -⟩ := h
  exact go_gapText hp hok hne

theorem go_gap {p k ind ir i g} (hp : GapPos kw p) (h : GapTxt ind ir i g) : Go kw p k g (InGap k) := go_gapAt (hp k) h

theorem go_optGap {p k ind ir g} (hp : GapPos kw p) (h : OptGapTxt ind ir g) :
    Go kw p k g fun p' k' => k' = k ∧ ((g = [] ∧ p' = p) ∨ p' = .gap) := by
  rcases h with rfl | ⟨i, h⟩
  · exact .nil ⟨rfl, .inl ⟨rfl, rfl⟩⟩
  · exact (go_gap hp h).mono fun p' k' h => ⟨h.1, .inr h.2⟩

/-! ### Tokens -/

theorem go_idents {k v w} (h : ∀ c ∈ w, IdentChar c) : Go kw (.word v) k w fun p' k' => k' = k ∧ p' = .word (v ++ w) := by
  induction w generalizing v with
  | nil => exact .nil ⟨rfl, by rw [List.append_nil]⟩
  | cons c w ih =>
    refine .cons (word_word (h c (by simp))) ((ih fun x hx => h x (by simp [hx])).mono fun p' k' h => ?_)
    rw [List.append_assoc] at h
    exact h

theorem go_word {p k w} (hp : TakesWord kw p k) (hne : w ≠ []) (h : ∀ c ∈ w, IdentChar c) :
    Go kw p k w fun p' k' => k' = k ∧ p' = .word w := by
  cases w with
  | nil => exact absurd rfl hne
  | cons c w => exact .cons (hp c (h c (by simp))) (go_idents fun x hx => h x (by simp [hx]))

theorem Spec.LoName.idents {n} (h : LoName n) : n ≠ [] ∧ ∀ c ∈ n, IdentChar c := by
  rcases h with rfl | ⟨⟨c, cs, rfl, hc, hcs⟩, -⟩
  · exact ⟨by simp, by decide⟩
  · exact ⟨by simp, List.forall_mem_cons.2 ⟨.inl hc, hcs⟩⟩
theorem Spec.UpName.idents {n} (h : UpName n) : n ≠ [] ∧ ∀ c ∈ n, IdentChar c := by
  obtain ⟨c, cs, rfl, hc, hcs⟩ := h
  exact ⟨by simp, List.forall_mem_cons.2 ⟨.inr (.inl hc), hcs⟩⟩
theorem Spec.TyVar.idents {n} (h : TyVar n) : n ≠ [] ∧ ∀ c ∈ n, IdentChar c := by
  obtain ⟨c, cs, rfl, hc, hcs⟩ := h
  refine ⟨by simp, List.forall_mem_cons.2 ⟨.inl hc, fun x hx => ?_⟩⟩
  rcases hcs x hx with h | ⟨h1, h2⟩ | h
  · exact .inl h
  · exact .inr (.inr (.inl ⟨by omega, h2⟩))
  · exact .inr (.inr (.inr h))
theorem Spec.Digits.idents {n} (h : Digits n) : n ≠ [] ∧ ∀ c ∈ n, IdentChar c :=
  ⟨h.1, fun c hc => .inr (.inr (.inl (h.2 c hc)))⟩

theorem Spec.LoName.plain {n} (h : LoName n) : NoBlock kw n := by
  rcases h with rfl | ⟨-, h⟩
  · exact plain_word_of (by decide)
  · exact plain_keywords h
theorem Spec.UpName.plain {n} (h : UpName n) : NoBlock kw n := by
  obtain ⟨c, cs, rfl, hc, -⟩ := h
  refine plain_word_of fun hm => ?_
  have : ∀ v ∈ blockWords, ∀ c cs, v = c :: cs → ¬ Upper c := by
    intro v hv c cs e
    simp only [blockWords, List.mem_cons, List.not_mem_nil, or_false] at hv
    rcases hv with rfl | rfl | rfl | rfl | rfl | rfl | rfl <;> cases e <;> decide
  exact this _ hm c cs rfl hc
theorem Spec.Digits.plain {n} (h : Digits n) : NoBlock kw n := by
  obtain ⟨hne, h⟩ := h
  refine plain_word_of fun hm => ?_
  have : ∀ v ∈ blockWords, ∃ c ∈ v, ¬ Digit c := by decide
  obtain ⟨c, hc, hd⟩ := this n hm
  exact hd (h c hc)

/-- A word that is not matched. -/
def AtWord (kw : Bool) (k : List Char) (p : Pos) (k' : List Char) : Prop := k' = k ∧ ∃ w, p = .word w ∧ NoBlock kw w
theorem AtWord.tokEnd {k p k'} (h : AtWord kw k p k') : TokEnd kw k p k' := ⟨h.1, .inl h.2⟩
theorem go_plain {p k w} (hp : TakesWord kw p k) (hne : w ≠ []) (h : ∀ c ∈ w, IdentChar c) (hw : NoBlock kw w) :
    Go kw p k w (AtWord kw k) := (go_word hp hne h).mono fun _ _ h => ⟨h.1, w, h.2, hw⟩

theorem go_lo {p k n} (hp : TakesWord kw p k) (h : LoName n) : Go kw p k n (AtWord kw k) := go_plain hp h.idents.1 h.idents.2 h.plain
theorem go_up {p k n} (hp : TakesWord kw p k) (h : UpName n) : Go kw p k n (AtWord kw k) := go_plain hp h.idents.1 h.idents.2 h.plain
theorem go_tyVar {p k n} (hp : TakesWord kw p k) (h : TyVar n) (hw : NoBlock kw n) : Go kw p k n (AtWord kw k) :=
  go_plain hp h.idents.1 h.idents.2 hw

/-- The dot after a token. -/
theorem step_dot {p k k'} (h : TokEnd kw k p k') : stepAt kw p k' '.' = some (.at (.op false c!".") k') := by
  rcases h with ⟨rfl, ⟨w, rfl, h⟩ | rfl | rfl⟩
  · rw [step_plain h (by decide)]; rfl
  · rfl
  · rfl
theorem step_comma {p k k'} (h : TokEnd kw k p k') : stepAt kw p k' ',' = some (.at .gap k') := by
  rcases h with ⟨rfl, ⟨w, rfl, h⟩ | rfl | rfl⟩
  · rw [step_plain h (by decide)]; rfl
  · rfl
  · rfl

theorem go_dotted {p k ns} (hp : TakesWord kw p k) (hne : ns ≠ []) (h : ∀ n ∈ ns, UpName n) :
    Go kw p k (dotted ns) (AtWord kw k) := by
  induction ns generalizing p with
  | nil => exact absurd rfl hne
  | cons n ns ih =>
    cases ns with
    | nil => exact go_up hp (h n (by simp))
    | cons m ms =>
      show Go kw p k (n ++ '.' :: dotted (m :: ms)) _
      refine (go_up hp (h n (by simp))).append fun p' k' hq => ?_
      refine .cons (step_dot hq.tokEnd) ?_
      obtain rfl := hq.1
      exact ih (word_op fun _ => gluesWord_dot) (by simp) fun x hx => h x (by simp [hx])

theorem go_dots {p k k' ns} (hp : TokEnd kw k p k') (h : ∀ n ∈ ns, LoName n) : Go kw p k' (dots ns) (TokEnd kw k) := by
  induction ns generalizing p with
  | nil => exact .nil hp
  | cons n ns ih =>
    show Go kw p k' ('.' :: (n ++ dots ns)) _
    refine .cons (step_dot hp) ((go_lo (word_op fun _ => gluesWord_dot) (h n (by simp))).append fun p'' k'' hq => ?_)
    obtain ⟨rfl, -⟩ := hp
    obtain rfl := hq.1
    exact ih hq.tokEnd fun x hx => h x (by simp [hx])

/-- Operator symbols after others. -/
theorem go_opChars {q w k us} (hw : w ≠ []) (hs : ¬ (w ++ us = c!"--" ∧ q = false)) (h : ∀ c ∈ us, OpChar c) :
    Go kw (.op q w) k us fun p' k' => k' = k ∧ p' = .op q (w ++ us) := by
  induction us generalizing w with
  | nil => rw [List.append_nil]; exact .nil ⟨rfl, rfl⟩
  | cons c us ih =>
    have hc := h c (by simp)
    have hnw : ¬ White c := by
      rintro (rfl | rfl | rfl | rfl) <;> revert hc <;> decide
    have hni : ¬ IdentChar c := fun h => ident_notOp h hc
    have hstep : stepAt kw (.op q w) k c = (if c = '-' ∧ w.getLast? = some '-' then
        (if w = c!"-" ∧ q = false then some (.at .dashes k) else some .unclear)
        else some (.at (.op q (w ++ [c])) k)) := by
      show afterOp q w c k = _
      unfold afterOp
      rw [if_neg hnw, if_neg hni, if_pos hc]
    by_cases hd : c = '-' ∧ w.getLast? = some '-'
    · rw [if_pos hd] at hstep
      by_cases hx : w = c!"-" ∧ q = false
      · rw [if_pos hx] at hstep
        cases us with
        | nil => exact absurd ⟨by rw [hx.1, hd.1]; rfl, hx.2⟩ hs
        | cons d us =>
          refine .cons hstep (.stop ?_)
          have hdo := h d (by simp)
          show (if d = '\n' then _ else if OpChar d then _ else _) = _
          rw [if_neg (by rintro rfl; revert hdo; decide), if_pos hdo]
      · rw [if_neg hx] at hstep
        exact .stop hstep
    · rw [if_neg hd] at hstep
      refine .cons hstep ((ih (w := w ++ [c]) (by simp) ?_ fun x hx => h x (by simp [hx])).mono ?_)
      · rw [List.append_assoc]; exact hs
      · intro p' k' hp; rw [List.append_assoc] at hp; exact hp

theorem step_op_gap {k c} (hc : OpChar c) : stepAt kw .gap k c = some (.at (.op false [c]) k) := by
  show afterGap c k = _
  unfold afterGap
  rw [if_neg, if_neg (fun h => ident_notOp h hc), if_pos hc]
  rintro ((rfl | rfl | rfl | rfl) | rfl) <;> revert hc <;> decide

theorem go_operator {k o} (h : Operator o) : Go kw .gap k o fun p' k' => k' = k ∧ p' = .op false o := by
  obtain ⟨hne, hall, hr⟩ := h
  cases o with
  | nil => exact absurd rfl hne
  | cons c us =>
    refine .cons (step_op_gap (hall c (by simp))) ?_
    refine go_opChars (w := [c]) (by simp) ?_ fun x hx => hall x (by simp [hx])
    rintro ⟨h, -⟩
    exact hr (by rw [show c :: us = c!"--" from h]; decide)

theorem go_operator_paren {k o} (h : Operator o) : Go kw .paren k o fun p' k' => k' = k ∧ p' = .op true o := by
  obtain ⟨hne, hall, hr⟩ := h
  cases o with
  | nil => exact absurd rfl hne
  | cons c us =>
    have hc := hall c (by simp)
    refine .cons (p' := .op true [c]) (k' := k) ?_ ?_
    · show (if OpChar c then _ else _) = _
      rw [if_pos hc]
    · exact go_opChars (w := [c]) (by simp) (by simp) fun x hx => hall x (by simp [hx])

/-- An operator in parentheses. -/
theorem go_opName {p k o} (hp : TakesOpen kw p k) (h : Operator o) : Go kw p k (c!"(" ++ o ++ c!")") (TokEnd kw k) := by
  show Go kw p k ('(' :: (o ++ c!")")) _
  refine .cons (p' := .paren) (k' := '(' :: k) (by rw [hp '(' (by decide)]; rfl) ?_
  refine (go_operator_paren h).append fun p' k' hq => ?_
  obtain ⟨rfl, rfl⟩ := hq
  refine .cons (p' := .closed) (k' := k) ?_ (.nil ⟨rfl, .inr (.inl rfl)⟩)
  show afterOp true o ')' _ = _
  unfold afterOp
  rw [if_neg (by decide), if_neg (by decide), if_neg (by decide)]
  rfl

theorem go_fnName {p k n m} (hp : TyPos kw p k) (h : FnName n m) : Go kw p k m (TokEnd kw k) := by
  cases h with
  | lo h => exact (go_lo hp.word h).mono fun _ _ h => h.tokEnd
  | op h => exact go_opName hp.opens h

theorem go_commas {k n} : Go kw .gap k (List.replicate n ',') (InGap k) := by
  induction n with
  | zero => exact .nil ⟨rfl, rfl⟩
  | succ n ih => exact .cons (p' := .gap) (k' := k) rfl ih

theorem go_var {p k ns c} (hp : TyPos kw p k) (h : VarText ns c) : Go kw p k c (TokEnd kw k) := by
  cases h with
  | lo h => exact (go_lo hp.word h).mono fun _ _ h => h.tokEnd
  | up hne h => exact (go_dotted hp.word hne h).mono fun _ _ h => h.tokEnd
  | op h => exact go_opName hp.opens h
  | @commas n =>
    show Go kw p k ('(' :: (',' :: List.replicate n ',' ++ c!")")) _
    refine .cons (p' := .paren) (k' := '(' :: k) (by rw [hp.opens '(' (by decide)]; rfl) ?_
    refine .cons (p' := .gap) (k' := '(' :: k) rfl (go_commas.append fun p' k' hq => ?_)
    obtain ⟨rfl, rfl⟩ := hq
    exact .cons (p' := .closed) (k' := k) rfl (.nil ⟨rfl, .inr (.inl rfl)⟩)

theorem TermPos.ty {p k} (h : TermPos kw p k) : TyPos kw p k := ⟨h.word, h.opens⟩

/-- A signed number up to its first digits. -/
theorem go_signed {p k s d} (hp : TermPos kw p k) (hs : Sign s) (hd : Digits d) : Go kw p k (s ++ d) (AtWord kw k) := by
  have key : ∀ q w, (∀ d, Digit d → stepAt kw (.op q w) k d = some (.at (.word [d]) k)) → Go kw (.op q w) k d (AtWord kw k) := by
    intro q w h2
    have hpl := hd.plain (kw := kw)
    obtain ⟨hne, hd⟩ := hd
    cases d with
    | nil => exact absurd rfl hne
    | cons c d =>
      exact .cons (h2 c (hd c (by simp))) ((go_idents fun x hx => .inr (.inr (.inl (hd x (by simp [hx]))))).mono
        fun _ _ h => ⟨h.1, _, h.2, hpl⟩)
  rcases hs with rfl | rfl | rfl
  · exact go_plain hp.word hd.idents.1 hd.idents.2 hd.plain
  · obtain ⟨q, w, h1, h2⟩ := hp.sign '+' (by decide)
    exact .cons h1 (key q w h2)
  · obtain ⟨q, w, h1, h2⟩ := hp.sign '-' (by decide)
    exact .cons h1 (key q w h2)

theorem go_int {p k n} (hp : TermPos kw p k) (h : IntText n) : Go kw p k n (TokEnd kw k) := by
  obtain ⟨s, d, rfl, hs, hd⟩ := h
  exact (go_signed hp hs hd).mono fun _ _ h => h.tokEnd

theorem go_float {p k n} (hp : TermPos kw p k) (h : FloatText n) : Go kw p k n (TokEnd kw k) := by
  obtain ⟨s, d, e, rfl, hs, hd, he⟩ := h
  refine (go_signed hp hs hd).append fun p' k' hq => .cons (step_dot hq.tokEnd) ?_
  obtain rfl := hq.1
  exact (go_plain (word_op fun _ => gluesWord_dot) he.idents.1 he.idents.2 he.plain).mono fun _ _ h => h.tokEnd

theorem go_stringText {k s} (h : StringText s) : Go kw .str k s fun p' k' => k' = k ∧ p' = .str := by
  induction h with
  | nil => exact .nil ⟨rfl, rfl⟩
  | @plain c s h1 h2 h3 _ ih =>
    refine .cons (p' := .str) (k' := k) ?_ ih
    show (if c = '"' then _ else if c = '\\' then _ else if c = '\n' then _ else _) = _
    rw [if_neg h1, if_neg h2, if_neg h3]
  | @escape c s h1 _ ih =>
    refine .cons (p' := .strEscape) (k' := k) rfl (.cons (p' := .str) (k' := k) ?_ ih)
    show (if c = '\n' then _ else _) = _
    rw [if_neg h1]

theorem go_string {p k s} (hp : TakesOpen kw p k) (h : StringText s) (hne : s ≠ []) :
    Go kw p k (c!"\"" ++ s ++ c!"\"") (TokEnd kw k) := by
  refine .cons (p' := .quote) (k' := k) (by rw [hp '"' (by decide)]; rfl) ?_
  have : Go kw .quote k s fun p' k' => k' = k ∧ p' = .str := by
    cases h with
    | nil => exact absurd rfl hne
    | @plain c s h1 h2 h3 h =>
      refine .cons (p' := .str) (k' := k) ?_ (go_stringText h)
      show (if c = '"' then _ else if c = '\\' then _ else if c = '\n' then _ else _) = _
      rw [if_neg h1, if_neg h2, if_neg h3]
    | @escape c s h1 h =>
      refine .cons (p' := .strEscape) (k' := k) rfl (.cons (p' := .str) (k' := k) ?_ (go_stringText h))
      show (if c = '\n' then _ else _) = _
      rw [if_neg h1]
  refine this.append fun p' k' hq => ?_
  obtain ⟨rfl, rfl⟩ := hq
  exact .cons (p' := .closed) (k' := k') rfl (.nil ⟨rfl, .inr (.inl rfl)⟩)

theorem go_string3 {p k s} (hp : TakesOpen kw p k) (h : '"' ∉ s) : Go kw p k (c!"\"\"\"" ++ s ++ c!"\"\"\"") (TokEnd kw k) := by
  refine .cons (p' := .quote) (k' := k) (by rw [hp '"' (by decide)]; rfl) ?_
  refine .cons (p' := .quotes) (k' := k) rfl (.cons (p' := .str3 0) (k' := k) rfl ?_)
  have : Go kw (.str3 0) k s fun p' k' => k' = k ∧ p' = .str3 0 := by
    induction s with
    | nil => exact .nil ⟨rfl, rfl⟩
    | cons c s ih =>
      refine .cons (p' := .str3 0) (k' := k) ?_ (ih fun e => h (by simp [e]))
      show (if c = '"' then _ else _) = _
      rw [if_neg fun e => h (by simp [e])]
  refine this.append fun p' k' hq => ?_
  obtain ⟨rfl, rfl⟩ := hq
  exact .inr ⟨.closed, k', rfl, rfl, .inr (.inl rfl)⟩

theorem go_char {p k w x} (hp : TakesOpen kw p k) (h : CharText w x) : Go kw p k (c!"'" ++ w ++ c!"'") (TokEnd kw k) := by
  refine .cons (p' := .char) (k' := k) (by rw [hp '\'' (by decide)]; rfl) ?_
  rcases h with rfl | ⟨a, b, v, rfl, -, -⟩
  · by_cases hx : x = '\\'
    · subst hx
      exact .inr ⟨.closed, k, rfl, rfl, .inr (.inl rfl)⟩
    · refine .cons (p' := .charEnd) (k' := k) ?_ (.cons (p' := .closed) (k' := k) rfl (.nil ⟨rfl, .inr (.inl rfl)⟩))
      show (if x = '\\' then _ else _) = _
      rw [if_neg hx]
  · exact .inr ⟨.closed, k, rfl, rfl, .inr (.inl rfl)⟩

end ElmParser
