import Verif.Proofs.Blocks
import Verif.Proofs.ScanCode

/-! The marks outside literals and comments are nested. -/
namespace ElmParser
open Spec

/-- A step outside literals and comments: when the position is in a word. -/
def WordStep (x : Char) (p' : Pos) : Prop := (IdentChar x → p' = .word [x]) ∧ (¬ IdentChar x → wordOf p' = [])

theorem wordStep_other {x : Char} {p' : Pos} (h : ¬ IdentChar x) (hp : wordOf p' = []) : WordStep x p' :=
  ⟨fun h' => absurd h' h, fun _ => hp⟩

theorem wordStep_closeAt {x k p' k'} (h : closeAt x k = some (.at p' k')) (hx : (opener x).isSome) : WordStep x p' := by
  cases k with
  | nil => cases h
  | cons o k =>
    change (if opener x = some o then _ else _) = _ at h
    split at h
    · cases h; exact wordStep_other (closer_notOp (opener_closer hx)).2 rfl
    · cases h

theorem wordStep_openAt {x k p' k'} (h : openAt x k = some (.at p' k')) : WordStep x p' := by
  unfold openAt at h
  by_cases e1 : x = '('
  · subst e1; cases h; exact wordStep_other (by decide) rfl
  rw [if_neg e1] at h
  by_cases e2 : x = '['
  · subst e2; cases h; exact wordStep_other (by decide) rfl
  rw [if_neg e2] at h
  by_cases e3 : x = '{'
  · subst e3; cases h; exact wordStep_other (by decide) rfl
  rw [if_neg e3] at h
  by_cases e4 : x = '"'
  · subst e4; cases h; exact wordStep_other (by decide) rfl
  rw [if_neg e4] at h
  by_cases e5 : x = '\''
  · subst e5; cases h; exact wordStep_other (by decide) rfl
  rw [if_neg e5] at h
  cases h

theorem wordStep_gap {x k p' k'} (h : afterGap x k = some (.at p' k')) : WordStep x p' := by
  unfold afterGap at h
  by_cases hw : White x ∨ x = ','
  · rw [if_pos hw] at h; cases h; exact wordStep_other (fun hi => ident_notWhite hi hw) rfl
  rw [if_neg hw] at h
  by_cases hi : IdentChar x
  · rw [if_pos hi] at h; cases h; exact ⟨fun _ => rfl, fun h => absurd hi h⟩
  rw [if_neg hi] at h
  by_cases ho : OpChar x
  · rw [if_pos ho] at h; cases h; exact wordStep_other hi rfl
  rw [if_neg ho] at h
  by_cases hc : (opener x).isSome
  · rw [if_pos hc] at h; exact wordStep_closeAt h hc
  rw [if_neg hc] at h
  exact wordStep_openAt h

theorem wordStep_token {x k p' k'} (h : afterToken x k = some (.at p' k')) : WordStep x p' := by
  rcases afterToken_cases h with ⟨hw, e⟩ | ⟨rfl, e⟩ | ⟨ho, e⟩ | ⟨hc, e⟩
  · cases e; exact wordStep_other (fun hi => ident_notWhite hi hw) rfl
  · cases e; exact wordStep_other (by decide) rfl
  · cases e
    refine wordStep_other ?_ rfl
    rcases ho with rfl | ⟨-, ho⟩
    · decide
    · simp only [List.mem_cons, List.not_mem_nil, or_false] at ho
      rcases ho with rfl | rfl | rfl <;> decide
  · exact wordStep_closeAt e hc

theorem wordStep_op {q w x k p' k'} (h : afterOp q w x k = some (.at p' k')) : WordStep x p' := by
  unfold afterOp at h
  by_cases hw : White x
  · rw [if_pos hw] at h
    split at h
    · cases h
    · cases h; exact wordStep_other (fun hi => ident_notWhite hi (.inl hw)) rfl
  rw [if_neg hw] at h
  by_cases hi : IdentChar x
  · rw [if_pos hi] at h
    split at h
    · cases h; exact ⟨fun _ => rfl, fun h => absurd hi h⟩
    · cases h
  rw [if_neg hi] at h
  by_cases ho : OpChar x
  · rw [if_pos ho] at h
    split at h
    · split at h
      · cases h; exact wordStep_other hi rfl
      · cases h
    · cases h; exact wordStep_other hi rfl
  rw [if_neg ho] at h
  by_cases hc : (opener x).isSome
  · rw [if_pos hc] at h
    split at h
    · exact wordStep_closeAt h hc
    · cases h
  rw [if_neg hc] at h
  split at h
  · exact wordStep_openAt h
  · cases h

/-- One step at a place in the code, of the scanner that matches the words. -/
theorem markedStep {p k x p' k'} (hp : p.code = true) (hb : p = .brace → x ≠ '-')
    (h : stepAt true p k x = some (.at p' k')) :
    (∃ w, p = .word w ∧ IdentChar x ∧ p' = .word (w ++ [x]) ∧ k' = k) ∨
    ∃ k1, endWord true (wordOf p) k = some k1 ∧ CodeStep k1 x p' k' ∧ WordStep x p' ∧ (IdentChar x → wordOf p = []) := by
  cases p with
  | gap => exact .inr ⟨k, rfl, codeStep_gap h, wordStep_gap h, fun _ => rfl⟩
  | paren =>
    refine .inr ⟨k, rfl, ?_, ?_, fun _ => rfl⟩ <;>
    · change (if OpChar x then _ else _) = _ at h
      by_cases ho : OpChar x
      · rw [if_pos ho] at h; cases h
        first
          | exact codeStep_same (op_notBracket ho) nofun nofun
          | exact wordStep_other (fun hi => ident_notOp hi ho) rfl
      · rw [if_neg ho] at h
        first
          | exact codeStep_gap h
          | exact wordStep_gap h
  | brace =>
    change (if x = '-' then _ else _) = _ at h
    rw [if_neg (hb rfl)] at h
    exact .inr ⟨k, rfl, codeStep_gap h, wordStep_gap h, fun _ => rfl⟩
  | word w =>
    change (if IdentChar x then _ else (endWord true w k).bind fun k => if x = '(' then _ else _) = _ at h
    by_cases hi : IdentChar x
    · rw [if_pos hi] at h; cases h
      exact .inl ⟨w, rfl, hi, rfl, rfl⟩
    rw [if_neg hi] at h
    cases he : endWord true w k with
    | none => rw [he] at h; cases h
    | some k1 =>
      rw [he] at h
      change (if x = '(' then _ else _) = _ at h
      refine .inr ⟨k1, he, ?_, ?_, fun h => absurd h hi⟩ <;>
      · by_cases hp : x = '('
        · rw [if_pos hp] at h
          first
            | exact codeStep_openAt h
            | exact wordStep_openAt h
        · rw [if_neg hp] at h
          first
            | exact codeStep_token h
            | exact wordStep_token h
  | closed => exact .inr ⟨k, rfl, codeStep_token h, wordStep_token h, fun _ => rfl⟩
  | quotes =>
    change (if x = '"' then _ else _) = _ at h
    refine .inr ⟨k, rfl, ?_, ?_, fun _ => rfl⟩ <;>
    · by_cases hq : x = '"'
      · rw [if_pos hq] at h; cases h; subst hq
        first
          | exact codeStep_same (by decide) nofun nofun
          | exact wordStep_other (by decide) rfl
      · rw [if_neg hq] at h
        first
          | exact codeStep_token h
          | exact wordStep_token h
  | op q w => exact .inr ⟨k, rfl, codeStep_op h, wordStep_op h, fun _ => rfl⟩
  | _ => cases hp

/-- One step inside a literal or a comment, of the scanner that matches the words. -/
theorem markedText {p k x p' k'} (hp : p.code = false) (hb : p ≠ .braceDash) (h : stepAt true p k x = some (.at p' k')) :
    k' = k ∧ p' ≠ .brace ∧ p' ≠ .braceDash ∧ wordOf p' = [] := by
  cases p with
  | gap | paren | brace | word | closed | quotes | op => cases hp
  | braceDash => exact absurd rfl hb
  | _ =>
    simp only [stepAt] at h
    repeat' split at h
    all_goals first
      | (cases h; done)
      | (cases h; exact ⟨rfl, nofun, nofun, rfl⟩)

/-- Where the scanner is. -/
def Spec.Scan.pos : Scan → Option Pos
  | .unclear => none
  | .at p _ => some p

theorem pos_closeAt {x k l σ τ} (h : closeAt x k = some σ) (h' : closeAt x l = some τ) : σ.pos = τ.pos := by
  have : ∀ {k σ}, closeAt x k = some σ → σ.pos = some .closed := by
    intro k σ h
    cases k with
    | nil => cases h
    | cons o k =>
      change (if opener x = some o then _ else _) = _ at h
      split at h
      · cases h; rfl
      · cases h
  rw [this h, this h']

theorem pos_openAt {x k l σ τ} (h : openAt x k = some σ) (h' : openAt x l = some τ) : σ.pos = τ.pos := by
  unfold openAt at h h'
  repeat' split at h
  all_goals first
    | (cases h; done)
    | skip
  all_goals
    cases h
    simp_all
    cases h'; rfl

theorem pos_gap {x k l σ τ} (h : afterGap x k = some σ) (h' : afterGap x l = some τ) : σ.pos = τ.pos := by
  unfold afterGap at h h'
  by_cases hw : White x ∨ x = ','
  · rw [if_pos hw] at h h'; cases h; cases h'; rfl
  rw [if_neg hw] at h h'
  by_cases hi : IdentChar x
  · rw [if_pos hi] at h h'; cases h; cases h'; rfl
  rw [if_neg hi] at h h'
  by_cases ho : OpChar x
  · rw [if_pos ho] at h h'; cases h; cases h'; rfl
  rw [if_neg ho] at h h'
  by_cases hc : (opener x).isSome
  · rw [if_pos hc] at h h'; exact pos_closeAt h h'
  rw [if_neg hc] at h h'
  exact pos_openAt h h'

theorem pos_token {x k l σ τ} (h : afterToken x k = some σ) (h' : afterToken x l = some τ) : σ.pos = τ.pos := by
  have hop : ∀ {k : List Char}, (x = '.' ∨ (inBraces k = true ∧ x ∈ ['=', ':', '|'])) →
      ¬ (White x ∨ x = ',') ∧ x ≠ '-' ∧ ¬ (opener x).isSome := by
    intro k ho
    rcases ho with rfl | ⟨-, ho⟩
    · decide
    · simp only [List.mem_cons, List.not_mem_nil, or_false] at ho
      rcases ho with rfl | rfl | rfl <;> decide
  have hcl : (opener x).isSome → ¬ (White x ∨ x = ',') ∧ x ≠ '-' := by
    intro hc
    have := opener_closer hc
    simp only [List.mem_cons, List.not_mem_nil, or_false] at this
    rcases this with rfl | rfl | rfl <;> decide
  have hd : x = '-' → ¬ (White x ∨ x = ',') := by rintro rfl; decide
  rcases afterToken_cases h with ⟨hw, e⟩ | ⟨hx, e⟩ | ⟨ho, e⟩ | ⟨hc, e⟩ <;>
  rcases afterToken_cases h' with ⟨hw', e'⟩ | ⟨hx', e'⟩ | ⟨ho', e'⟩ | ⟨hc', e'⟩
  · rw [e, e']; rfl
  · exact absurd hw (hd hx')
  · exact absurd hw (hop ho').1
  · exact absurd hw (hcl hc').1
  · exact absurd hw' (hd hx)
  · rw [e, e']; rfl
  · exact absurd hx (hop ho').2.1
  · exact absurd hx (hcl hc').2
  · exact absurd hw' (hop ho).1
  · exact absurd hx' (hop ho).2.1
  · rw [e, e']; rfl
  · exact absurd hc' (hop ho).2.2
  · exact absurd hw' (hcl hc).1
  · exact absurd hx' (hcl hc).2
  · exact absurd hc (hop ho').2.2
  · exact pos_closeAt e e'

theorem pos_op {q w x k l σ τ} (h : afterOp q w x k = some σ) (h' : afterOp q w x l = some τ) : σ.pos = τ.pos := by
  unfold afterOp at h h'
  by_cases hw : White x
  · rw [if_pos hw] at h h'
    split at h
    · cases h
    · rename_i hd
      rw [if_neg hd] at h'
      cases h; cases h'; rfl
  rw [if_neg hw] at h h'
  by_cases hi : IdentChar x
  · rw [if_pos hi] at h h'
    split at h
    · split at h'
      · cases h; cases h'; rfl
      · cases h'
    · cases h
  rw [if_neg hi] at h h'
  by_cases ho : OpChar x
  · rw [if_pos ho] at h h'
    split at h
    · rename_i h1
      rw [if_pos h1] at h'
      split at h
      · rename_i h2
        rw [if_pos h2] at h'
        cases h; cases h'; rfl
      · rename_i h2
        rw [if_neg h2] at h'
        cases h; cases h'; rfl
    · rename_i h1
      rw [if_neg h1] at h'
      cases h; cases h'; rfl
  rw [if_neg ho] at h h'
  by_cases hc : (opener x).isSome
  · rw [if_pos hc] at h h'
    split at h
    · rename_i h1
      rw [if_pos h1] at h'
      exact pos_closeAt h h'
    · cases h
  rw [if_neg hc] at h h'
  split at h
  · split at h'
    · exact pos_openAt h h'
    · cases h'
  · cases h

/-- What is open has no influence on the position. -/
theorem pos_step {p x k l σ τ} (h : stepAt true p k x = some σ) (h' : stepAt false p l x = some τ) : σ.pos = τ.pos := by
  cases p with
  | gap => exact pos_gap h h'
  | paren =>
    change (if OpChar x then _ else _) = _ at h h'
    split at h
    · rename_i ho
      rw [if_pos ho] at h'; cases h; cases h'; rfl
    · rename_i ho
      rw [if_neg ho] at h'; exact pos_gap h h'
  | brace =>
    change (if x = '-' then _ else _) = _ at h h'
    split at h
    · rename_i ho
      rw [if_pos ho] at h'; cases h; cases h'; rfl
    · rename_i ho
      rw [if_neg ho] at h'; exact pos_gap h h'
  | word w =>
    change (if IdentChar x then _ else (endWord true w k).bind fun k => if x = '(' then _ else _) = _ at h
    change (if IdentChar x then _ else (some l).bind fun k => if x = '(' then _ else _) = _ at h'
    split at h
    · rename_i hi
      rw [if_pos hi] at h'; cases h; cases h'; rfl
    · rename_i hi
      rw [if_neg hi] at h'
      cases he : endWord true w k with
      | none => rw [he] at h; cases h
      | some k1 =>
        rw [he] at h
        change (if x = '(' then _ else _) = _ at h h'
        split at h
        · rename_i hp
          rw [if_pos hp] at h'; exact pos_openAt h h'
        · rename_i hp
          rw [if_neg hp] at h'; exact pos_token h h'
  | closed => exact pos_token h h'
  | quotes =>
    change (if x = '"' then _ else _) = _ at h h'
    split at h
    · rename_i ho
      rw [if_pos ho] at h'; cases h; cases h'; rfl
    · rename_i ho
      rw [if_neg ho] at h'; exact pos_token h h'
  | op q w => exact pos_op h h'
  | _ =>
    simp only [stepAt] at h h'
    repeat' split at h
    all_goals first
      | (cases h; done)
      | (simp_all; done)
      | (simp_all; cases h; cases h'; rfl)
      | (simp_all; subst h; subst h'; rfl)

theorem code_marks {s : Str} : ∀ {p k l p1 l1}, ((scanFrom true (.at p k) s).map (Scan.final true)).getD false = true →
    scanFrom false (.at p l) s = some (.at p1 l1) →
    closesMarks (openIn p k s) (marksFrom (wordOf p) (codeFrom (.at p l) s)) = true := by
  induction s with
  | nil =>
    intro p k l p1 l1 h h'
    change Scan.final true (.at p k) = true at h
    have hk : endWord true (wordOf p) (openIn p k []) = some [] := by
      cases p with
      | word w => exact beq_iff_eq.1 h
      | _ =>
        cases k with
        | nil => rfl
        | cons o k => cases h
    have := closesMarks_word (ms := []) hk rfl
    rwa [List.append_nil] at this
  | cons x s ih =>
    intro p k l p1 l1 h h'
    change (((stepAt true p k x).bind fun σ => scanFrom true σ s).map (Scan.final true)).getD false = true at h
    change ((stepAt false p l x).bind fun σ => scanFrom false σ s) = _ at h'
    cases hs : stepAt true p k x with
    | none => rw [hs] at h; cases h
    | some σ =>
    cases hs' : stepAt false p l x with
    | none => rw [hs'] at h'; cases h'
    | some τ =>
    have hpos := pos_step hs hs'
    rw [hs] at h
    rw [hs'] at h'
    change ((scanFrom true σ s).map (Scan.final true)).getD false = true at h
    change scanFrom false τ s = _ at h'
    cases τ with
    | unclear => rw [scanFrom_unclear] at h'; cases h'
    | «at» p' l' =>
    cases σ with
    | unclear => cases hpos
    | «at» p'' k' =>
    cases hpos
    have ih := ih h h'
    have e : codeFrom (.at p l) (x :: s) = (if p.keeps x s then [x] else []) ++ codeFrom (.at p' l') s := by
      change (match stepAt false p l x with | none => [] | some σ => _) = _
      rw [hs']
    rw [e]
    by_cases hd : p = .braceDash
    · subst hd
      change (if x = '-' then _ else _) = _ at hs
      split at hs
      · cases hs
      · cases hs
        exact ih
    cases hp : p.code with
    | false =>
      obtain ⟨rfl, h1, h2, h3⟩ := markedText hp hd hs
      have : p.keeps x s = false := by simp [Pos.keeps, hp]
      rw [this, openIn_eq hd (by rintro rfl; cases hp)]
      rw [openIn_eq h2 fun h => absurd h h1, h3] at ih
      have hw : wordOf p = [] := by cases p <;> first | rfl | cases hp
      rw [hw]
      exact ih
    | true =>
      by_cases hb : p = .brace ∧ x = '-'
      · obtain ⟨rfl, rfl⟩ := hb
        change some (Scan.at .braceDash k) = _ at hs
        cases hs
        have : Pos.keeps .brace '-' s = false := by simp [Pos.keeps]
        rw [this]
        exact ih
      have hc := markedStep hp (fun h1 h2 => hb ⟨h1, h2⟩) hs
      rw [openIn_eq hd (by rintro h1 h2; exact hb ⟨h1, Option.some.inj h2⟩)]
      by_cases hx : x = '{' ∧ s.head? = some '-'
      · have : p.keeps x s = false := by simp [Pos.keeps, hx]
        rw [this]
        rcases hc with ⟨w, -, hi, -, -⟩ | ⟨k1, h1, h2, h3, h4⟩
        · rw [hx.1] at hi; exact absurd hi (by decide)
        have hb' := h2.brace.2 hx.1
        subst hb'
        -- no brace directly after a word
        have hw : wordOf p = [] := by
          cases p with
          | word w =>
            obtain ⟨rfl, -⟩ := hx
            change ((endWord true w k).bind fun k => afterToken '{' k) = _ at hs
            change endWord true w k = _ at h1
            rw [h1] at hs
            have : afterToken '{' k1 = none := by
              unfold afterToken
              rw [if_neg (by decide), if_neg (by decide), if_neg, if_neg (by decide)]
              rintro (h | ⟨-, h⟩)
              · exact absurd h (by decide)
              · exact absurd h (by decide)
            change afterToken '{' k1 = _ at hs
            rw [this] at hs; cases hs
          | _ => rfl
        rw [hw] at h1 ⊢
        cases h1
        rw [show openIn .brace k' s = k'.tail from if_pos hx.2] at ih
        rcases h2.stack with ⟨-, rfl⟩ | ⟨h1, -⟩ | ⟨h1, -⟩
        · exact ih
        · rw [hx.1] at h1; exact absurd h1 (by decide)
        · rw [hx.1] at h1; exact absurd h1 (by decide)
      · have : p.keeps x s = true := by
          unfold Pos.keeps
          rw [hp]
          simp only [Bool.true_and, Bool.and_eq_true, Bool.not_eq_true', Bool.and_eq_false_iff]
          constructor
          · by_cases h1 : x = '{'
            · right; simpa using fun h2 => hx ⟨h1, h2⟩
            · left; simpa using h1
          · split
            · simpa using fun h => hb ⟨rfl, h⟩
            · rfl
        rw [this]
        show closesMarks k (if IdentChar x then _ else _) = true
        rcases hc with ⟨w, rfl, hi, rfl, rfl⟩ | ⟨k1, h1, h2, h3, h4⟩
        · rw [if_pos hi]
          exact ih
        · rw [openIn_eq h2.notDash fun h1 h2' => hx ⟨h2.brace.1 h1, h2'⟩] at ih
          by_cases hi : IdentChar x
          · rw [if_pos hi]
            have e := h3.1 hi
            subst e
            rw [h4 hi] at h1 ⊢
            cases h1
            rcases h2.stack with ⟨h, -⟩ | ⟨-, o, h, -⟩ | ⟨-, -, rfl⟩
            · exact absurd hi (open_notOp h).2.1
            · exact absurd hi (closer_notOp (opener_closer (by rw [h]; rfl))).2
            · exact ih
          · rw [if_neg hi]
            rw [h3.2 hi] at ih
            exact closesMarks_word h1 (closesMarks_stack h2.stack ih)

end ElmParser
