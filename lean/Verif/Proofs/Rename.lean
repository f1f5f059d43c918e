import Verif.Proofs.Lex
import Verif.Proofs.Trail
import Verif.Spec.Rename

/-! A simulation: every parser treats two texts alike that differ in their names only.

A parser can also stop in the middle of a word, as `type_variable` does in `fooBar`.  There the two runs are not compared
any further: nothing that can follow reads a word, so that both of them end up in an error. -/
namespace ElmParser
open Spec Spec.Rename
set_option linter.unusedSectionVars false

namespace Rn

variable {α β γ δ : Type} {W : Str → Str → Prop}

/-! ### Texts -/

theorem mono {n : Nat} {s t : Str} (h : Text W n s t) : Text W 0 s t := by
  induction h with
  | nil => exact .nil
  | other h1 h2 _ ih => exact .other h1 h2 ih
  | word h1 h2 h3 h4 h5 h6 _ => exact .word h1 h2 h3 h4 h5 h6
  | kept h1 h3 h4 h5 _ ih => exact .kept h1 h3 h4 h5 (by rw [Nat.zero_sub]; exact ih)
  | quote h _ => exact .quote h
  | literal h1 h2 h _ => exact .literal h1 h2 h
  | hexadecimal h1 h2 h _ => exact .hexadecimal h1 h2 h

/-- What a text can begin with. -/
inductive Inv (W : Str → Str → Prop) : Str → Str → Prop
  | nil : Inv W [] []
  | other {c s t} : ¬ IdentChar c → c ≠ '\'' → Text W 0 s t → Inv W (c :: s) (c :: t)
  | word {w w' s t} : IsWord w → IsWord w' → Ends s → Ends t → W w w' → Text W 0 s t → Inv W (w ++ s) (w' ++ t)
  | quote {s t} : Inv W ('\'' :: s) ('\'' :: t)

theorem inv {n : Nat} {s t : Str} (h : Text W n s t) : Inv W s t := by
  cases h with
  | nil => exact .nil
  | other h1 h2 h => exact .other h1 h2 (mono h)
  | word h1 h2 h3 h4 h5 h => exact .word h1 h2 h3 h4 h5 h
  | kept h1 h3 h4 h5 h => exact .word h1 h1 h3 h4 h5 (mono h)
  | quote h => exact .quote
  | literal h1 h2 h => exact .quote
  | hexadecimal h1 h2 h => exact .quote

theorem nil_iff {n : Nat} {s t : Str} (h : Text W n s t) : s = [] ↔ t = [] := by
  cases inv h with
  | nil => simp
  | other => simp
  | word h1 h2 => simp [h1.1, h2.1]
  | quote => simp

/-- Apart from letters, digits and underscores the texts begin with the same character. -/
theorem head_iff {n : Nat} {c : Char} (hc : ¬ IdentChar c) {s t : Str} (h : Text W n s t) :
    (∃ r, s = c :: r) ↔ ∃ r, t = c :: r := by
  cases inv h with
  | nil => simp
  | other => simp
  | @word w w' s t h1 h2 =>
    obtain ⟨hw, h1⟩ := h1
    obtain ⟨hw', h2⟩ := h2
    cases w with
    | nil => exact absurd rfl hw
    | cons d w =>
      cases w' with
      | nil => exact absurd rfl hw'
      | cons d' w' =>
        have e : d ≠ c := by rintro rfl; exact hc (h1 _ (by simp))
        have e' : d' ≠ c := by rintro rfl; exact hc (h2 _ (by simp))
        simp [e, e']
  | quote => simp

theorem other {n : Nat} {c : Char} {s t : Str} (h : Text W n (c :: s) t) (h1 : ¬ IdentChar c) (h2 : c ≠ '\'') :
    ∃ t', t = c :: t' ∧ Text W (n - 1) s t' := by
  generalize hx : c :: s = x at h
  cases h with
  | nil => cases hx
  | other _ _ h => cases hx; exact ⟨_, rfl, h⟩
  | @word w _ _ _ hw =>
    obtain ⟨h0, hw⟩ := hw
    cases w with
    | nil => exact absurd rfl h0
    | cons d w => cases hx; exact absurd (hw c (by simp)) h1
  | @kept _ w _ _ hw =>
    obtain ⟨h0, hw⟩ := hw
    cases w with
    | nil => exact absurd rfl h0
    | cons d w => cases hx; exact absurd (hw c (by simp)) h1
  | quote => cases hx; exact absurd rfl h2
  | literal => cases hx; exact absurd rfl h2
  | hexadecimal => cases hx; exact absurd rfl h2

theorem ident_quote : ¬ IdentChar '\'' := by decide

theorem ends_prefix {a b : Str} (h : Ends (a ++ b)) : Ends a := by
  cases a with
  | nil => exact next_nil _
  | cons c a => exact next_cons.2 (next_cons.1 h)

theorem takeWhile_run {f : Char → Bool} {w s : Str} (h1 : ∀ c ∈ w, f c = true) (h2 : Next (fun c => f c = false) s) :
    (w ++ s).takeWhile f = w ∧ (w ++ s).dropWhile f = s := by
  induction w with
  | nil =>
    cases s with
    | nil => exact ⟨rfl, rfl⟩
    | cons c s =>
      have := next_cons.1 h2
      simp [this]
  | cons c w ih =>
    obtain ⟨i1, i2⟩ := ih fun c hc => h1 c (List.mem_cons_of_mem _ hc)
    have := h1 c (by simp)
    simp [this, i1, i2]

/-- Signs and white space are the same. -/
theorem tw_sep {f : Char → Bool} (hf : ∀ c, IdentChar c → f c = false) (hq : f '\'' = false) {n : Nat} {s t : Str}
    (h : Text W n s t) : s.takeWhile f = t.takeWhile f ∧ Text W 0 (s.dropWhile f) (t.dropWhile f) := by
  have hw : ∀ {w s : Str}, IsWord w → (w ++ s).takeWhile f = [] ∧ (w ++ s).dropWhile f = w ++ s := by
    intro w s h
    obtain ⟨h0, h⟩ := h
    cases w with
    | nil => exact absurd rfl h0
    | cons c w => have := hf c (h c (by simp)); simp [this]
  have hq : ∀ {s : Str}, ('\'' :: s).takeWhile f = [] ∧ ('\'' :: s).dropWhile f = '\'' :: s := by
    intro s; simp [hq]
  induction h with
  | nil => exact ⟨rfl, .nil⟩
  | @other n c s t h1 h2 h ih =>
    simp only [List.takeWhile_cons, List.dropWhile_cons]
    cases e : f c with
    | true => exact ⟨by simp [ih.1], by simpa using ih.2⟩
    | false => exact ⟨by simp, by simpa using .other h1 h2 (mono h)⟩
  | word h1 h2 h3 h4 h5 h6 _ =>
    rw [(hw h1).1, (hw h2).1, (hw h1).2, (hw h2).2]; exact ⟨rfl, .word h1 h2 h3 h4 h5 h6⟩
  | kept h1 h3 h4 h5 h6 _ =>
    rw [(hw h1).1, (hw h1).1, (hw h1).2, (hw h1).2]; exact ⟨rfl, .kept h1 h3 h4 h5 (by rw [Nat.zero_sub]; exact mono h6)⟩
  | quote h _ => rw [hq.1, hq.1, hq.2, hq.2]; exact ⟨rfl, .quote h⟩
  | literal h1 h2 h _ => rw [hq.1, hq.1, hq.2, hq.2]; exact ⟨rfl, .literal h1 h2 h⟩
  | hexadecimal h1 h2 h _ => rw [hq.1, hq.1, hq.2, hq.2]; exact ⟨rfl, .hexadecimal h1 h2 h⟩

theorem takeWhile_app {f : Char → Bool} {w s : Str} (h : ∀ c ∈ w, f c = true) :
    (w ++ s).takeWhile f = w ++ s.takeWhile f ∧ (w ++ s).dropWhile f = s.dropWhile f := by
  induction w with
  | nil => exact ⟨rfl, rfl⟩
  | cons c w ih =>
    obtain ⟨i1, i2⟩ := ih fun c hc => h c (List.mem_cons_of_mem _ hc)
    have := h c (by simp)
    simp [this, i1, i2]

theorem ends_takeWhile {f : Char → Bool} {s : Str} (h : Ends s) : Ends (s.takeWhile f) :=
  ends_prefix (b := s.dropWhile f) (by rw [List.takeWhile_append_dropWhile]; exact h)

theorem ident_ne {c : Char} (h : IdentChar c) : c ≠ '"' ∧ c ≠ '\n' ∧ c ≠ '\\' ∧ c ≠ '\'' ∧ c ≠ '-' := by
  refine ⟨?_, ?_, ?_, ?_, ?_⟩ <;> (rintro rfl; revert h; decide)

/-- Texts up to a quote or the end of the line are related. -/
theorem tw_all {f : Char → Bool} (hf : ∀ c, c ≠ '"' → c ≠ '\n' → f c = true) {n : Nat} {s t : Str}
    (h : Text W n s t) : Text W n (s.takeWhile f) (t.takeWhile f) ∧ Text W 0 (s.dropWhile f) (t.dropWhile f) := by
  have hw : ∀ {w s : Str}, IsWord w → (w ++ s).takeWhile f = w ++ s.takeWhile f ∧ (w ++ s).dropWhile f = s.dropWhile f := by
    intro w s h
    exact takeWhile_app fun c hc => hf c (ident_ne (h.2 c hc)).1 (ident_ne (h.2 c hc)).2.1
  have fq : f '\'' = true := hf _ (by decide) (by decide)
  have fb : f '\\' = true := hf _ (by decide) (by decide)
  have fx : f 'x' = true := hf _ (by decide) (by decide)
  induction h with
  | nil => exact ⟨.nil, .nil⟩
  | @other n c s t h1 h2 h ih =>
    simp only [List.takeWhile_cons, List.dropWhile_cons]
    cases e : f c with
    | true => exact ⟨by simpa using .other h1 h2 ih.1, by simpa using ih.2⟩
    | false => exact ⟨.nil, by simpa using .other h1 h2 (mono h)⟩
  | word h1 h2 h3 h4 h5 h6 ih =>
    rw [(hw h1).1, (hw h2).1, (hw h1).2, (hw h2).2]
    exact ⟨.word h1 h2 (ends_takeWhile h3) (ends_takeWhile h4) h5 ih.1, ih.2⟩
  | kept h1 h3 h4 h5 h6 ih =>
    rw [(hw h1).1, (hw h1).1, (hw h1).2, (hw h1).2]
    exact ⟨.kept h1 (ends_takeWhile h3) (ends_takeWhile h4) h5 ih.1, ih.2⟩
  | quote h ih =>
    simp only [List.takeWhile_cons, List.dropWhile_cons, fq, if_true]
    exact ⟨.quote ih.1, ih.2⟩
  | @literal c s t h1 h2 h ih =>
    simp only [List.takeWhile_cons, List.dropWhile_cons, fq, hf c h1 h2, if_true]
    exact ⟨.literal h1 h2 ih.1, ih.2⟩
  | @hexadecimal a b s t h1 h2 h ih =>
    have fa := hf a (ident_ne h1).1 (ident_ne h1).2.1
    have fb' := hf b (ident_ne h2).1 (ident_ne h2).2.1
    simp only [List.takeWhile_cons, List.dropWhile_cons, fq, fb, fx, fa, fb', if_true]
    exact ⟨.hexadecimal h1 h2 ih.1, ih.2⟩

/-! #### String literals -/

theorem sb_plain {c : Char} {s : Str} (h1 : c ≠ '"') (h2 : c ≠ '\n') (h3 : c ≠ '\\') :
    stringBody (c :: s) = (c :: (stringBody s).1, (stringBody s).2) := by
  cases s with
  | nil => simp [stringBody, h1, h2]
  | cons d s => simp [stringBody, h1, h2, h3]
theorem sb_back {d : Char} {s : Str} (h1 : d ≠ '"') (h2 : d ≠ '\\') :
    stringBody ('\\' :: d :: s) = ('\\' :: (stringBody (d :: s)).1, (stringBody (d :: s)).2) := by
  simp [stringBody, h1, h2]
theorem sb_esc {d : Char} {s : Str} (h : d = '"' ∨ d = '\\') :
    stringBody ('\\' :: d :: s) = ('\\' :: d :: (stringBody s).1, (stringBody s).2) := by
  rcases h with rfl | rfl <;> simp [stringBody]
theorem sb_stop {c : Char} {s : Str} (h : c = '"' ∨ c = '\n') : stringBody (c :: s) = ([], c :: s) := by
  cases s with
  | nil => rcases h with rfl | rfl <;> simp [stringBody]
  | cons d s => rcases h with rfl | rfl <;> simp [stringBody]
theorem sb_run {w s : Str} (h : ∀ c ∈ w, IdentChar c) : stringBody (w ++ s) = (w ++ (stringBody s).1, (stringBody s).2) := by
  induction w with
  | nil => rfl
  | cons c w ih =>
    obtain ⟨h1, h2, h3, -⟩ := ident_ne (h c (by simp))
    rw [List.cons_append, sb_plain h1 h2 h3, ih fun c hc => h c (List.mem_cons_of_mem _ hc)]
    rfl
theorem sb_append (s : Str) : (stringBody s).1 ++ (stringBody s).2 = s := by
  induction s using stringBody.induct
  case case1 => rfl
  case case2 c d s h ih => simp only [stringBody, if_pos h, List.cons_append, ih]
  case case3 c d s h1 h2 ih => simp only [stringBody, if_neg h1, if_pos h2, List.cons_append, ih]
  case case4 c d s h1 h2 => simp only [stringBody, if_neg h1, if_neg h2, List.nil_append]
  case case5 c h => simp only [stringBody, if_pos h, List.append_nil]
  case case6 c h => simp only [stringBody, if_neg h, List.nil_append]

theorem sb_ends {s : Str} (h : Ends s) : Ends (stringBody s).1 :=
  ends_prefix (b := (stringBody s).2) (by rw [sb_append]; exact h)

theorem sb_text {n : Nat} {s t : Str} (h : Text W n s t) :
    Text W n (stringBody s).1 (stringBody t).1 ∧ Text W 0 (stringBody s).2 (stringBody t).2 := by
  have key : ∀ k {n : Nat} {s t : Str}, s.length ≤ k → Text W n s t →
      Text W n (stringBody s).1 (stringBody t).1 ∧ Text W 0 (stringBody s).2 (stringBody t).2 := by
    intro k
    induction k with
    | zero =>
      intro n s t hk h
      obtain rfl := List.length_eq_zero_iff.1 (Nat.le_zero.1 hk)
      obtain rfl := (nil_iff h).1 rfl
      exact ⟨.nil, .nil⟩
    | succ k ih =>
      intro n s t hk h
      cases h with
      | nil => exact ⟨.nil, .nil⟩
      | @other _ c s t h1 h2 h =>
        simp only [List.length_cons, Nat.add_le_add_iff_right] at hk
        by_cases e : c = '\\'
        · subst e
          by_cases e : ∃ d r, s = d :: r ∧ (d = '"' ∨ d = '\\')
          · obtain ⟨d, r, rfl, hd⟩ := e
            have hd1 : ¬ IdentChar d := by rcases hd with rfl | rfl <;> decide
            have hd2 : d ≠ '\'' := by rcases hd with rfl | rfl <;> decide
            obtain ⟨r', rfl, hr⟩ := other h hd1 hd2
            rw [sb_esc hd, sb_esc hd]
            obtain ⟨i1, i2⟩ := ih (by simp only [List.length_cons] at hk; omega) hr
            exact ⟨.other h1 h2 (.other hd1 hd2 i1), i2⟩
          · have e' : ¬ ∃ d r, t = d :: r ∧ (d = '"' ∨ d = '\\') := by
              rintro ⟨d, r, rfl, hd⟩
              have hd1 : ¬ IdentChar d := by rcases hd with rfl | rfl <;> decide
              obtain ⟨r', rfl⟩ := (head_iff hd1 h).2 ⟨r, rfl⟩
              exact e ⟨d, r', rfl, hd⟩
            have go : ∀ {s : Str}, (¬ ∃ d r, s = d :: r ∧ (d = '"' ∨ d = '\\')) →
                stringBody ('\\' :: s) = ('\\' :: (stringBody s).1, (stringBody s).2) := by
              intro s e
              cases s with
              | nil => rfl
              | cons d s =>
                exact sb_back (fun h => e ⟨d, s, rfl, .inl h⟩) (fun h => e ⟨d, s, rfl, .inr h⟩)
            rw [go e, go e']
            obtain ⟨i1, i2⟩ := ih hk h
            exact ⟨.other h1 h2 i1, i2⟩
        · by_cases e' : c = '"' ∨ c = '\n'
          · rw [sb_stop e', sb_stop e']
            exact ⟨.nil, .other h1 h2 (mono h)⟩
          · rw [not_or] at e'
            rw [sb_plain e'.1 e'.2 e, sb_plain e'.1 e'.2 e]
            obtain ⟨i1, i2⟩ := ih hk h
            exact ⟨.other h1 h2 i1, i2⟩
      | @word w w' s t h1 h2 h3 h4 h5 h =>
        rw [sb_run h1.2, sb_run h2.2]
        have : 0 < w.length := List.length_pos_iff.2 h1.1
        obtain ⟨i1, i2⟩ := ih (by rw [List.length_append] at hk; omega) h
        exact ⟨.word h1 h2 (sb_ends h3) (sb_ends h4) h5 i1, i2⟩
      | @kept _ w s t h1 h3 h4 h5 h =>
        rw [sb_run h1.2, sb_run h1.2]
        have : 0 < w.length := List.length_pos_iff.2 h1.1
        obtain ⟨i1, i2⟩ := ih (by rw [List.length_append] at hk; omega) h
        exact ⟨.kept h1 (sb_ends h3) (sb_ends h4) h5 i1, i2⟩
      | quote h =>
        rw [sb_plain (by decide) (by decide) (by decide), sb_plain (by decide) (by decide) (by decide)]
        obtain ⟨i1, i2⟩ := ih (by simp only [List.length_cons] at hk; omega) h
        exact ⟨.quote i1, i2⟩
      | @literal c s t h1 h2 h =>
        have go : ∀ s, stringBody ('\'' :: c :: '\'' :: s) = ('\'' :: c :: '\'' :: (stringBody s).1, (stringBody s).2) := by
          intro s
          rw [sb_plain (by decide) (by decide) (by decide)]
          by_cases e : c = '\\'
          · subst e
            rw [sb_back (by decide) (by decide), sb_plain (by decide) (by decide) (by decide)]
          · rw [sb_plain h1 h2 e, sb_plain (by decide) (by decide) (by decide)]
        rw [go, go]
        obtain ⟨i1, i2⟩ := ih (by simp only [List.length_cons] at hk; omega) h
        exact ⟨.literal h1 h2 i1, i2⟩
      | @hexadecimal a b s t h1 h2 h =>
        have go : ∀ s, stringBody ('\'' :: '\\' :: 'x' :: a :: b :: '\'' :: s) =
            ('\'' :: '\\' :: 'x' :: a :: b :: '\'' :: (stringBody s).1, (stringBody s).2) := by
          intro s
          obtain ⟨a1, a2, a3, -⟩ := ident_ne h1
          obtain ⟨b1, b2, b3, -⟩ := ident_ne h2
          rw [sb_plain (by decide) (by decide) (by decide), sb_back (by decide) (by decide),
            sb_plain (by decide) (by decide) (by decide), sb_plain a1 a2 a3, sb_plain b1 b2 b3,
            sb_plain (by decide) (by decide) (by decide)]
        rw [go, go]
        obtain ⟨i1, i2⟩ := ih (by simp only [List.length_cons] at hk; omega) h
        exact ⟨.hexadecimal h1 h2 i1, i2⟩
  exact key _ (Nat.le_refl _) h

/-! #### Comments -/

/-- One character further in the text before the end of a comment. -/
def push (c : Char) (o : Option (Str × Str)) : Option (Str × Str) := o.map fun x => (c :: x.1, x.2)

theorem find_skip {c : Char} {s : Str} (h : ¬ (c = '-' ∧ ∃ r, s = '}' :: r)) :
    findSubstring c!"-}" (c :: s) = push c (findSubstring c!"-}" s) := by
  have : stripPrefix c!"-}" (c :: s) = none := by
    cases s with
    | nil => by_cases e : c = '-' <;> simp [stripPrefix, e]
    | cons d s =>
      by_cases e : c = '-'
      · have : d ≠ '}' := by rintro rfl; exact h ⟨e, s, rfl⟩
        simp [stripPrefix, e, this]
      · simp [stripPrefix, e]
  rw [findSubstring, this]
  unfold push
  cases findSubstring c!"-}" s <;> rfl
theorem find_here (r : Str) : findSubstring c!"-}" ('-' :: '}' :: r) = some ([], r) := by
  simp [findSubstring, stripPrefix]

theorem find_append {s a b : Str} (h : findSubstring c!"-}" s = some (a, b)) : s = a ++ ('-' :: '}' :: b) := by
  induction s generalizing a b with
  | nil => simp [findSubstring, stripPrefix] at h
  | cons c s ih =>
    by_cases e : c = '-' ∧ ∃ r, s = '}' :: r
    · obtain ⟨rfl, r, rfl⟩ := e
      rw [find_here] at h; cases h; rfl
    · rw [find_skip e] at h
      unfold push at h
      cases e : findSubstring c!"-}" s with
      | none => rw [e] at h; cases h
      | some x => rw [e] at h; cases h; rw [ih e]; rfl

theorem find_word {w s : Str} (h : ∀ c ∈ w, c ≠ '-') :
    findSubstring c!"-}" (w ++ s) = (findSubstring c!"-}" s).map fun x => (w ++ x.1, x.2) := by
  induction w with
  | nil => simp only [List.nil_append]; cases findSubstring c!"-}" s <;> rfl
  | cons c w ih =>
    rw [List.cons_append, find_skip (fun e => h c (by simp) e.1), ih fun c hc => h c (List.mem_cons_of_mem _ hc)]
    unfold push
    cases findSubstring c!"-}" s <;> rfl

/-- The texts before and after the end of the comment are related. -/
abbrev Found (W : Str → Str → Prop) (n : Nat) : Option (Str × Str) → Option (Str × Str) → Prop :=
  Both (Pair (Text W n) (Text W 0))

theorem find_text {n : Nat} {s t : Str} (h : Text W n s t) :
    Found W n (findSubstring c!"-}" s) (findSubstring c!"-}" t) := by
  have ends : ∀ {s a b : Str}, Ends s → findSubstring c!"-}" s = some (a, b) → Ends a := by
    intro s a b h e
    rw [find_append e] at h
    exact ends_prefix h
  have push' : ∀ {n m : Nat} {c : Char} {o o' : Option (Str × Str)}, Found W n o o' →
      (∀ {a b}, Text W n a b → Text W m (c :: a) (c :: b)) → Found W m (push c o) (push c o') := by
    intro n m c o o' h hc
    cases h with
    | none => exact .none
    | some h => cases h with | mk h1 h2 => exact .some (.mk (hc h1) h2)
  induction h with
  | nil => exact .none
  | @other n c s t h1 h2 h ih =>
    by_cases e : c = '-' ∧ ∃ r, s = '}' :: r
    · obtain ⟨rfl, r, rfl⟩ := e
      obtain ⟨r', rfl, hr⟩ := other h (by decide) (by decide)
      rw [find_here, find_here]
      exact .some (.mk .nil (mono hr))
    · have e' : ¬ (c = '-' ∧ ∃ r, t = '}' :: r) := fun ⟨e1, e2⟩ => e ⟨e1, (head_iff (by decide) h).2 e2⟩
      rw [find_skip e, find_skip e']
      exact push' ih fun h => .other h1 h2 h
  | @word w w' s t h1 h2 h3 h4 h5 h ih =>
    rw [find_word fun c hc => (ident_ne (h1.2 c hc)).2.2.2.2, find_word fun c hc => (ident_ne (h2.2 c hc)).2.2.2.2]
    revert ih
    cases e : findSubstring c!"-}" s <;> cases e' : findSubstring c!"-}" t <;> intro ih
    · exact .none
    · cases ih
    · cases ih
    · cases ih with
      | some h => cases h with | mk i1 i2 => exact .some (.mk (.word h1 h2 (ends h3 e) (ends h4 e') h5 i1) i2)
  | @kept n w s t h1 h3 h4 h5 h ih =>
    rw [find_word fun c hc => (ident_ne (h1.2 c hc)).2.2.2.2, find_word fun c hc => (ident_ne (h1.2 c hc)).2.2.2.2]
    revert ih
    cases e : findSubstring c!"-}" s <;> cases e' : findSubstring c!"-}" t <;> intro ih
    · exact .none
    · cases ih
    · cases ih
    · cases ih with
      | some h => cases h with | mk i1 i2 => exact .some (.mk (.kept h1 (ends h3 e) (ends h4 e') h5 i1) i2)
  | quote h ih =>
    rw [find_skip (fun e => absurd e.1 (by decide)), find_skip (fun e => absurd e.1 (by decide))]
    exact push' ih fun h => .quote h
  | @literal c s t h1 h2 h ih =>
    have go : ∀ s, findSubstring c!"-}" ('\'' :: c :: '\'' :: s) = push '\'' (push c (push '\'' (findSubstring c!"-}" s))) := by
      intro s
      rw [find_skip (fun e => absurd e.1 (by decide)), find_skip, find_skip (fun e => absurd e.1 (by decide))]
      rintro ⟨-, r, e⟩; cases e
    rw [go, go]
    revert ih
    generalize findSubstring c!"-}" s = x, findSubstring c!"-}" t = y
    intro ih
    cases ih with
    | none => exact .none
    | some h => cases h with | mk i1 i2 => exact .some (.mk (.literal h1 h2 i1) i2)
  | @hexadecimal a b s t h1 h2 h ih =>
    have go : ∀ s, findSubstring c!"-}" ('\'' :: '\\' :: 'x' :: a :: b :: '\'' :: s) =
        push '\'' (push '\\' (push 'x' (push a (push b (push '\'' (findSubstring c!"-}" s)))))) := by
      intro s
      rw [find_skip (fun e => absurd e.1 (by decide)), find_skip (fun e => absurd e.1 (by decide)),
        find_skip (fun e => absurd e.1 (by decide)), find_skip (fun e => absurd e.1 (ident_ne h1).2.2.2.2),
        find_skip (fun e => absurd e.1 (ident_ne h2).2.2.2.2), find_skip (fun e => absurd e.1 (by decide))]
    rw [go, go]
    revert ih
    generalize findSubstring c!"-}" s = x, findSubstring c!"-}" t = y
    intro ih
    cases ih with
    | none => exact .none
    | some h => cases h with | mk i1 i2 => exact .some (.mk (.hexadecimal h1 h2 i1) i2)

/-! ### The simulation -/

/-- The text goes on in the middle of a word. -/
def Stuck (s : Str) : Prop := ∃ c r, s = c :: r ∧ IdentChar c

/-- The two runs agree: both fail, or both succeed with related values and related rests, or (only if `st`) both stop in
the middle of a word. -/
inductive Sm (W : Str → Str → Prop) (st : Prop) (R : α → β → Prop) (s s' : Str) : Res α → Res β → Prop
  | ok {v v' r r'} : R v v' → Text W 0 r r' → r <:+ s → r' <:+ s' → (r.length = s.length ↔ r'.length = s'.length) →
      Sm W st R s s' (.ok v r) (.ok v' r')
  | stuck {v v' r r'} : st → Stuck r → Stuck r' → r <:+ s → r' <:+ s' → r.length < s.length → r'.length < s'.length →
      Sm W st R s s' (.ok v r) (.ok v' r')
  | err : Sm W st R s s' .err .err
  | undefL {x y} : Undef x → Sm W st R s s' x y
  | undefR {x y} : Undef y → Sm W st R s s' x y

/-- The parsers `p` and `p'` agree. -/
def S (W : Str → Str → Prop) (st : Prop) (R : α → β → Prop) (p : Parser α) (p' : Parser β) : Prop :=
  ∀ s s' : Str, Text W 0 s s' → Sm W st R s s' (p s) (p' s')

/-- Within a word the parser fails. -/
def KE (p : Parser α) : Prop := ∀ s, Stuck s → p s = .err ∨ Undef (p s)
/-- Within a word the parser reads nothing. -/
def KO (p : Parser α) : Prop := ∀ s, Stuck s → (∃ v, p s = .ok v s) ∨ Undef (p s)

variable {st : Prop} {R : α → β → Prop} {Q : γ → δ → Prop}

theorem Sm.mono {st' : Prop} {R' : α → β → Prop} {s s' t t' : Str} {x : Res α} {y : Res β} (h : Sm W st R t t' x y)
    (hs : st → st') (hR : ∀ {v v'}, R v v' → R' v v') (h1 : t <:+ s) (h2 : t' <:+ s')
    (h3 : t.length = s.length ↔ t'.length = s'.length) : Sm W st' R' s s' x y := by
  have l1 := h1.length_le
  have l2 := h2.length_le
  cases h with
  | ok h a k1 k2 k3 =>
    have := k1.length_le
    have := k2.length_le
    exact .ok (hR h) a (k1.trans h1) (k2.trans h2) (by omega)
  | stuck h a b k1 k2 k3 k4 => exact .stuck (hs h) a b (k1.trans h1) (k2.trans h2) (by omega) (by omega)
  | err => exact .err
  | undefL h => exact .undefL h
  | undefR h => exact .undefR h

theorem sm_same {s s' : Str} {v : α} {v' : β} (h : R v v') (hs : Text W 0 s s') : Sm W st R s s' (.ok v s) (.ok v' s') :=
  .ok h hs (List.suffix_refl _) (List.suffix_refl _) (by simp)

theorem sm_stuck {s s' r r' : Str} {v : α} {v' : β} (h : st) (h1 : Stuck r) (h2 : Stuck r') {u u' : Str} (e : s = u ++ r)
    (e' : s' = u' ++ r') (hu : u ≠ []) (hu' : u' ≠ []) : Sm W st R s s' (.ok v r) (.ok v' r') := by
  have l1 := List.length_pos_iff.2 hu
  have l2 := List.length_pos_iff.2 hu'
  refine .stuck h h1 h2 ⟨u, e.symm⟩ ⟨u', e'.symm⟩ ?_ ?_
  · rw [e, List.length_append]; omega
  · rw [e', List.length_append]; omega

theorem sm_ok {s s' r r' : Str} {v : α} {v' : β} (h : R v v') (hr : Text W 0 r r') {u u' : Str} (e : s = u ++ r)
    (e' : s' = u' ++ r') (hu : u ≠ []) (hu' : u' ≠ []) : Sm W st R s s' (.ok v r) (.ok v' r') := by
  have l1 := List.length_pos_iff.2 hu
  have l2 := List.length_pos_iff.2 hu'
  refine .ok h hr ⟨u, e.symm⟩ ⟨u', e'.symm⟩ ?_
  rw [e, e', List.length_append, List.length_append]; omega

/-- What may happen after a stop within a word. -/
def After (st : Prop) (x : Res γ) (y : Res δ) (r r' : Str) : Prop :=
  (x = .err ∧ y = .err) ∨ (st ∧ (∃ v, x = .ok v r) ∧ ∃ v, y = .ok v r') ∨ Undef x ∨ Undef y

theorem sm_andThen {st' : Prop} {s s' : Str} {x : Res α} {y : Res β} {f : α → Str → Res γ} {g : β → Str → Res δ}
    (h : Sm W st R s s' x y)
    (hf : ∀ v v' r r', R v v' → Text W 0 r r' → Sm W st' Q r r' (f v r) (g v' r'))
    (hk : st → ∀ v v' r r', Stuck r → Stuck r' → After st' (f v r) (g v' r') r r') :
    Sm W st' Q s s' (x.andThen f) (y.andThen g) := by
  cases h with
  | @ok v v' r r' h a k1 k2 k3 => exact (hf v v' r r' h a).mono id id k1 k2 k3
  | @stuck v v' r r' h a b k1 k2 k3 k4 =>
    rcases hk h v v' r r' a b with ⟨e, e'⟩ | ⟨h', ⟨w, e⟩, w', e'⟩ | h | h
    · rw [andThen_ok, andThen_ok, e, e']; exact .err
    · rw [andThen_ok, andThen_ok, e, e']; exact .stuck h' a b k1 k2 k3 k4
    · exact .undefL h
    · exact .undefR h
  | err => exact .err
  | undefL h => exact .undefL (undef_andThen h)
  | undefR h => exact .undefR (undef_andThen h)

theorem s_mono {R' : α → β → Prop} {p : Parser α} {p' : Parser β} (h : S W st R p p') (hR : ∀ {v v'}, R v v' → R' v v') :
    S W st R' p p' := fun s s' hs => (h s s' hs).mono id hR (List.suffix_refl _) (List.suffix_refl _) (by simp)
theorem lift {p : Parser α} {p' : Parser β} (h : S W False R p p') : S W st R p p' :=
  fun s s' hs => (h s s' hs).mono False.elim id (List.suffix_refl _) (List.suffix_refl _) (by simp)
theorem s_pure {v : α} {v' : β} (h : R v v') : S W st R (pure v) (pure v') := fun _ _ hs => sm_same h hs
theorem s_fail : S W st R Parser.fail Parser.fail := fun _ _ _ => .err

/-- The first parser does not stop within words. -/
theorem b0 {p : Parser α} {p' : Parser β} {q : α → Parser γ} {q' : β → Parser δ} (hp : S W False R p p')
    (hq : ∀ v v', R v v' → S W st Q (q v) (q' v')) : S W st Q (p >>= q) (p' >>= q') :=
  fun s s' hs => sm_andThen (hp s s' hs) (fun v v' r r' h k => hq v v' h r r' k) False.elim

theorem after_err {x : Res γ} {y : Res δ} {r r' : Str} (hx : x = .err ∨ Undef x) (hy : y = .err ∨ Undef y) :
    After st x y r r' := by
  rcases hx with hx | hx
  · rcases hy with hy | hy
    · exact .inl ⟨hx, hy⟩
    · exact .inr (.inr (.inr hy))
  · exact .inr (.inr (.inl hx))

/-- The first parser may stop within a word, the second fails there. -/
theorem bE {p : Parser α} {p' : Parser β} {q : α → Parser γ} {q' : β → Parser δ} (hp : S W True R p p')
    (hq : ∀ v v', R v v' → S W st Q (q v) (q' v')) (k : ∀ v, KE (q v)) (k' : ∀ v, KE (q' v)) :
    S W st Q (p >>= q) (p' >>= q') :=
  fun s s' hs => sm_andThen (hp s s' hs) (fun v v' r r' h k => hq v v' h r r' k)
    fun _ _ _ _ _ a b => after_err (k _ _ a) (k' _ _ b)

/-- The first parser may stop within a word, the second reads nothing there. -/
theorem bO {p : Parser α} {p' : Parser β} {q : α → Parser γ} {q' : β → Parser δ} (hp : S W True R p p')
    (hq : ∀ v v', R v v' → S W True Q (q v) (q' v')) (k : ∀ v, KO (q v)) (k' : ∀ v, KO (q' v)) :
    S W True Q (p >>= q) (p' >>= q') :=
  fun s s' hs => sm_andThen (hp s s' hs) (fun v v' r r' h => hq v v' h r r')
    fun _ v v' r r' a b => by
      rcases k v r a with hx | hx
      · rcases k' v' r' b with hy | hy
        · exact .inr (.inl ⟨trivial, hx, hy⟩)
        · exact .inr (.inr (.inr hy))
      · exact .inr (.inr (.inl hx))

theorem s_alt {p q : Parser α} {p' q' : Parser β} (hp : S W st R p p') (hq : S W st R q q') :
    S W st R (p </> q) (p' </> q') := fun s s' hs => by
  simp only [alt_apply]
  have h := hp s s' hs
  revert h
  generalize p s = x, p' s' = y
  intro h
  cases h with
  | ok h a k1 k2 k3 => exact .ok h a k1 k2 k3
  | stuck h a b k1 k2 k3 k4 => exact .stuck h a b k1 k2 k3 k4
  | err => exact hq s s' hs
  | undefL h =>
    rcases h with rfl | rfl
    · exact .undefL (.inl rfl)
    · exact .undefL (.inr rfl)
  | undefR h =>
    rcases h with rfl | rfl
    · exact .undefR (.inl rfl)
    · exact .undefR (.inr rfl)

theorem s_pmap {p : Parser α} {p' : Parser β} {f : α → γ} {g : β → δ} (hp : S W st R p p')
    (h : ∀ v v', R v v' → Q (f v) (g v')) : S W st Q (pmap p f) (pmap p' g) :=
  fun s s' hs => sm_andThen (hp s s' hs) (fun v v' _ _ k hr => sm_same (h v v' k) hr)
    fun hst _ _ _ _ _ _ => .inr (.inl ⟨hst, ⟨_, rfl⟩, _, rfl⟩)
theorem s_opt {p : Parser α} {p' : Parser β} (hp : S W st R p p') : S W st (Both R) (opt p) (opt p') :=
  s_alt (s_pmap hp fun _ _ h => .some h) (s_pure .none)
theorem s_mapRes {p : Parser α} {p' : Parser β} {f : α → Option γ} {g : β → Option δ} (hp : S W False R p p')
    (h : ∀ v v', R v v' → Both Q (f v) (g v')) : S W st Q (mapRes p f) (mapRes p' g) :=
  b0 hp fun v v' k => by
    have h := h v v' k
    revert h
    generalize f v = a, g v' = b
    intro h
    cases h with
    | none => exact s_fail
    | some h => exact s_pure h

/-! #### Within a word -/

theorem ke_fail : KE (Parser.fail : Parser α) := fun _ _ => .inl rfl
theorem ko_pure (v : α) : KO (pure v : Parser α) := fun _ _ => .inl ⟨v, rfl⟩
theorem ke_bind {p : Parser α} {q : α → Parser β} (h : KE p) : KE (p >>= q) := fun s hs => by
  rw [bind_apply]
  rcases h s hs with h | h
  · rw [h]; exact .inl rfl
  · exact .inr (undef_andThen h)
theorem ke_bindO {p : Parser α} {q : α → Parser β} (h : KO p) (hq : ∀ v, KE (q v)) : KE (p >>= q) := fun s hs => by
  rw [bind_apply]
  rcases h s hs with ⟨v, h⟩ | h
  · rw [h]; exact hq v s hs
  · exact .inr (undef_andThen h)
theorem ko_bind {p : Parser α} {q : α → Parser β} (h : KO p) (hq : ∀ v, KO (q v)) : KO (p >>= q) := fun s hs => by
  rw [bind_apply]
  rcases h s hs with ⟨v, h⟩ | h
  · rw [h]; exact hq v s hs
  · exact .inr (undef_andThen h)
theorem ke_pmap {p : Parser α} {f : α → β} (h : KE p) : KE (pmap p f) := ke_bind h
theorem ko_pmap {p : Parser α} {f : α → β} (h : KO p) : KO (pmap p f) := ko_bind h fun _ => ko_pure _
theorem ke_mapRes {p : Parser α} {f : α → Option β} (h : KE p) : KE (mapRes p f) := ke_bind h
theorem ke_alt {p q : Parser α} (h : KE p) (hq : KE q) : KE (p </> q) := fun s hs => by
  rw [alt_apply]
  rcases h s hs with h | h | h
  · rw [h]; exact hq s hs
  · rw [h]; exact .inr (.inl rfl)
  · rw [h]; exact .inr (.inr rfl)
theorem ko_opt {p : Parser α} (h : KE p) : KO (opt p) := fun s hs => by
  rw [opt_apply]
  rcases h s hs with h | h | h
  · rw [h]; exact .inl ⟨none, rfl⟩
  · rw [h]; exact .inr (.inl rfl)
  · rw [h]; exact .inr (.inr rfl)
theorem ke_many1 {p : Parser α} (h : KE p) : KE (many1 p) := ke_bind h
theorem ko_many0 {p : Parser α} (h : KE p) : KO (many0 p) := fun s hs => by
  unfold many0
  simp only [many0Loop]
  rcases h s hs with h | h | h
  · rw [h]; exact .inl ⟨[], rfl⟩
  · rw [h]; exact .inr (.inl rfl)
  · rw [h]; exact .inr (.inr rfl)
theorem ke_preceded {p : Parser α} {q : Parser β} (h : KE p) : KE (preceded p q) := ke_bind h
theorem ke_terminated {p : Parser α} {q : Parser β} (h : KE p) : KE (terminated p q) := ke_bind h
theorem ke_terminatedO {p : Parser α} {q : Parser β} (h : KO p) (hq : KE q) : KE (terminated p q) :=
  ke_bindO h fun _ => ke_bind hq
theorem ke_delimited {p : Parser α} {q : Parser β} {r : Parser γ} (h : KE p) : KE (delimited p q r) := ke_bind h
theorem ke_delimitedO {p : Parser α} {q : Parser β} {r : Parser γ} (h : KO p) (hq : KE q) : KE (delimited p q r) :=
  ke_bindO h fun _ => ke_bind hq

theorem ke_char {c : Char} (h : ¬ IdentChar c) : KE (char c) := by
  rintro _ ⟨d, r, rfl, hd⟩
  have : d ≠ c := by rintro rfl; exact h hd
  simp [char, this]
theorem ke_tag {c : Char} {k : Str} (h : ¬ IdentChar c) : KE (tag (c :: k)) := by
  rintro _ ⟨d, r, rfl, hd⟩
  have : d ≠ c := by rintro rfl; exact h hd
  simp [tag, stripPrefix, this]
/-- `f` holds of no character of a word. -/
abbrev Sep (f : Char → Bool) : Prop := ∀ c, IdentChar c → f c = false
theorem ke_takeWhile1 {f : Char → Bool} (hf : Sep f) : KE (takeWhile1 f) := by
  rintro _ ⟨d, r, rfl, hd⟩
  simp [takeWhile1, hf d hd]
theorem ko_takeWhile0 {f : Char → Bool} (hf : Sep f) : KO (takeWhile0 f) := by
  rintro _ ⟨d, r, rfl, hd⟩
  exact .inl ⟨[], by simp [takeWhile0, hf d hd]⟩

theorem sep_eq {x : Char} (hx : ¬ IdentChar x) : Sep (fun c => c == x) := fun c hc => by
  have : c ≠ x := by rintro rfl; exact hx hc
  simp [this]
theorem sep_multispace : Sep isMultispace := fun c hc => by
  have : ∀ x, ¬ IdentChar x → c ≠ x := fun x hx => by rintro rfl; exact hx hc
  simp [isMultispace, this ' ' (by decide), this '\t' (by decide), this '\r' (by decide), this '\n' (by decide)]
theorem sep_sn : Sep (fun c => c == ' ' || c == '\n') := fun c hc => by
  have : ∀ x, ¬ IdentChar x → c ≠ x := fun x hx => by rintro rfl; exact hx hc
  simp [this ' ' (by decide), this '\n' (by decide)]
theorem sep_space1 : Sep (fun c => c = ' ' ∨ c = '\t') := fun c hc => by
  have : ∀ x, ¬ IdentChar x → c ≠ x := fun x hx => by rintro rfl; exact hx hc
  simp [this ' ' (by decide), this '\t' (by decide)]
theorem sep_op : Sep isOpChar := fun c hc => by
  cases e : isOpChar c with
  | false => rfl
  | true =>
    simp only [isOpChar, decide_eq_true_eq, List.mem_cons, List.not_mem_nil, or_false] at e
    have : ∀ x, ¬ IdentChar x → c ≠ x := fun x hx => by rintro rfl; exact hx hc
    rcases e with rfl | rfl | rfl | rfl | rfl | rfl | rfl | rfl | rfl | rfl | rfl | rfl | rfl | rfl | rfl | rfl | rfl |
      rfl | rfl | rfl <;> exact absurd rfl (this _ (by decide))

theorem ke_spaces : KE spaces := ke_takeWhile1 (sep_eq (by decide))
theorem ke_multispace : KE multispace := ke_takeWhile1 sep_multispace
theorem ko_multispace0 : KO multispace0 := ko_takeWhile0 sep_multispace
theorem ke_sn : KE spacesAndNewlines := ke_takeWhile1 sep_sn
theorem ke_space1 : KE space1 := ke_takeWhile1 sep_space1
theorem ke_singleLineComment : KE singleLineComment := ke_bind (ke_preceded (ke_tag (by decide)))
theorem ke_newLineItem : KE newLineItem := ke_preceded (ke_char (by decide))
theorem ke_gapItem (ind : Nat) : KE (gapItem ind) :=
  ke_alt (ke_pmap ke_spaces) (ke_alt (ke_pmap ke_singleLineComment) (ke_many1 ke_newLineItem))
theorem ke_gap (ind : Nat) (ir : IR) : KE (gap ind ir) := ke_mapRes (ke_many1 (ke_gapItem ind))
theorem ko_optGap (ind : Nat) (ir : IR) : KO (optGap ind ir) := ko_pmap (ko_opt (ke_gap ind ir))
theorem ke_newLineAndSameIndent (ind : Nat) : KE (newLineAndSameIndent ind) :=
  ke_mapRes (ke_preceded (ke_char (by decide)))
theorem ke_eof : KE eof := by
  rintro _ ⟨d, r, rfl, hd⟩
  exact .inl rfl

/-- What a parser does within a word. -/
syntax "kk" : tactic
macro_rules
  | `(tactic| kk) => `(tactic| first
    | exact ke_gap _ _ | exact ke_char (by decide) | exact ke_tag (by decide) | exact ke_spaces | exact ke_multispace
    | exact ke_sn | exact ke_space1 | exact ke_newLineAndSameIndent _ | exact ke_eof
    | exact ko_pure _ | exact ko_multispace0 | exact ko_optGap _ _
    | (refine ke_bind ?_; kk; done) | (refine ke_bindO ?_ fun _ => ?_ <;> kk; done)
    | (refine ko_bind ?_ fun _ => ?_ <;> kk; done)
    | (refine ke_preceded ?_; kk; done) | (refine ke_terminated ?_; kk; done)
    | (refine ke_terminatedO ?_ ?_ <;> kk; done)
    | (refine ke_delimited ?_; kk; done) | (refine ke_delimitedO ?_ ?_ <;> kk; done)
    | (refine ke_pmap ?_; kk; done) | (refine ko_pmap ?_; kk; done)
    | (refine ko_opt ?_; kk; done) | (refine ko_many0 ?_; kk; done)
    | (refine ke_alt ?_ ?_ <;> kk; done))

/-! #### Sequences -/

theorem s_preceded {p : Parser α} {p' : Parser β} {q : Parser γ} {q' : Parser δ} (hp : S W False R p p')
    (hq : S W st Q q q') : S W st Q (preceded p q) (preceded p' q') := b0 hp fun _ _ _ => hq
theorem s_terminated {p : Parser α} {p' : Parser β} {q : Parser γ} {q' : Parser δ} (hp : S W False R p p')
    (hq : S W False Q q q') : S W False R (terminated p q) (terminated p' q') :=
  b0 hp fun _ _ h => b0 hq fun _ _ _ => s_pure h
theorem s_terminatedE {p : Parser α} {p' : Parser β} {q : Parser γ} {q' : Parser δ} (hp : S W True R p p')
    (hq : S W False Q q q') (k : KE q) (k' : KE q') : S W st R (terminated p q) (terminated p' q') :=
  bE hp (fun _ _ h => b0 hq fun _ _ _ => s_pure h) (fun _ => ke_bind k) (fun _ => ke_bind k')
/-- Something between delimiters that do not stop within words. -/
theorem s_delimited {ε ζ : Type} {P : ε → ζ → Prop} {p : Parser α} {p' : Parser β} {q : Parser γ} {q' : Parser δ}
    {r : Parser ε} {r' : Parser ζ} (hp : S W False R p p') (hq : S W True Q q q') (hr : S W False P r r')
    (k : KE r) (k' : KE r') : S W st Q (delimited p q r) (delimited p' q' r') :=
  b0 hp fun _ _ _ => s_terminatedE hq hr k k'
theorem s_delimited0 {ε ζ : Type} {P : ε → ζ → Prop} {p : Parser α} {p' : Parser β} {q : Parser γ} {q' : Parser δ}
    {r : Parser ε} {r' : Parser ζ} (hp : S W False R p p') (hq : S W False Q q q') (hr : S W False P r r') :
    S W st Q (delimited p q r) (delimited p' q' r') :=
  b0 hp fun _ _ _ => lift (s_terminated hq hr)

theorem eq_iff_length {r s : Str} (h : r <:+ s) : r = s ↔ r.length = s.length :=
  ⟨fun e => by rw [e], h.eq_of_length⟩

/-- How a loop ends after an element that stops within a word. -/
theorem s_many0Loop {p : Parser α} {p' : Parser β} (hp : S W st R p p') (k : KE p) (k' : KE p') (n m : Nat) (s s' : Str)
    (hs : Text W 0 s s') : Sm W st (Each R) s s' (many0Loop p n s) (many0Loop p' m s') := by
  induction n generalizing m s s' with
  | zero => exact .undefL (.inl rfl)
  | succ n ih =>
    cases m with
    | zero => exact .undefR (.inl rfl)
    | succ m =>
    simp only [many0Loop]
    have done : Sm W st (Each R) s s' (.ok [] s) (.ok [] s') := sm_same .nil hs
    have h := hp s s' hs
    revert h
    generalize p s = x, p' s' = y
    intro h
    cases h with
    | @ok v v' r r' h a k1 k2 k3 =>
      dsimp only
      by_cases e : r = s
      · have e' : r' = s' := (eq_iff_length k2).2 (k3.1 ((eq_iff_length k1).1 e))
        rw [if_pos e, if_pos e']; exact done
      · have e' : r' ≠ s' := fun e' => e ((eq_iff_length k1).2 (k3.2 ((eq_iff_length k2).1 e')))
        rw [if_neg e, if_neg e']
        refine (sm_andThen (Q := Each R) (ih m r r' a) (fun vs vs' q q' hh b => ?_) fun hst _ _ _ _ _ _ => ?_).mono id id k1 k2 k3
        · exact sm_same (.cons h hh) b
        · exact .inr (.inl ⟨hst, ⟨_, rfl⟩, _, rfl⟩)
    | @stuck v v' r r' h a b k1 k2 k3 k4 =>
      dsimp only
      rw [if_neg fun e => by rw [e] at k3; omega, if_neg fun e => by rw [e] at k4; omega]
      have go : ∀ {α : Type} {p : Parser α} (_ : KE p) (n : Nat) {r : Str} (_ : Stuck r),
          (many0Loop p n r = .ok [] r) ∨ Undef (many0Loop p n r) := by
        intro α p k n r a
        cases n with
        | zero => exact .inr (.inl rfl)
        | succ n =>
          simp only [many0Loop]
          rcases k r a with e | e | e <;> rw [e]
          · exact .inl rfl
          · exact .inr (.inl rfl)
          · exact .inr (.inr rfl)
      rcases go k n a with e | e
      · rcases go k' m b with e' | e'
        · rw [e, e', andThen_ok, andThen_ok]
          exact .stuck h a b k1 k2 k3 k4
        · exact .undefR (undef_andThen e')
      · exact .undefL (undef_andThen e)
    | err => exact done
    | undefL h =>
      rcases h with rfl | rfl
      · exact .undefL (.inl rfl)
      · exact .undefL (.inr rfl)
    | undefR h =>
      rcases h with rfl | rfl
      · exact .undefR (.inl rfl)
      · exact .undefR (.inr rfl)

theorem s_many0 {p : Parser α} {p' : Parser β} (hp : S W st R p p') (k : KE p) (k' : KE p') :
    S W st (Each R) (many0 p) (many0 p') := fun s s' hs => s_many0Loop hp k k' _ _ s s' hs
theorem s_many1 {p : Parser α} {p' : Parser β} (hp : S W st R p p') (k : KE p) (k' : KE p') :
    S W st (Each R) (many1 p) (many1 p') := fun s s' hs => by
  rw [many1_apply, many1_apply]
  refine sm_andThen (hp s s' hs) (fun v v' r r' h a => sm_andThen (s_many0 hp k k' r r' a) (fun _ _ _ _ hh b =>
    sm_same (.cons h hh) b) fun hst _ _ _ _ _ _ => .inr (.inl ⟨hst, ⟨_, rfl⟩, _, rfl⟩)) fun hst v v' r r' a b => ?_
  rcases ko_many0 k r a with ⟨w, e⟩ | e
  · rcases ko_many0 k' r' b with ⟨w', e'⟩ | e'
    · rw [e, e']; exact .inr (.inl ⟨hst, ⟨_, rfl⟩, _, rfl⟩)
    · exact .inr (.inr (.inr (undef_andThen e')))
  · exact .inr (.inr (.inl (undef_andThen e)))

/-- Separators within a word. -/
abbrev KS (p : Parser α) : Prop := KE p ∨ KO p

theorem sepLoop_stuck {sep : Parser α} {p : Parser β} (k : KS sep) (n : Nat) {s : Str} (h : Stuck s) :
    sepLoop sep p n s = .ok [] s ∨ Undef (sepLoop sep p n s) := by
  cases n with
  | zero => exact .inr (.inl rfl)
  | succ n =>
    simp only [sepLoop]
    rcases k with k | k
    · rcases k s h with e | e | e <;> rw [e]
      · exact .inl rfl
      · exact .inr (.inl rfl)
      · exact .inr (.inr rfl)
    · rcases k s h with ⟨v, e⟩ | e | e <;> rw [e]
      · exact .inl (by simp)
      · exact .inr (.inl rfl)
      · exact .inr (.inr rfl)

theorem sm_sepLoop {sep : Parser α} {sep' : Parser β} {p : Parser γ} {p' : Parser δ} (hsep : S W False R sep sep')
    (ks : KS sep) (ks' : KS sep') (hp : S W st Q p p') (n m : Nat) (s s' : Str) (hs : Text W 0 s s') :
    Sm W st (Each Q) s s' (sepLoop sep p n s) (sepLoop sep' p' m s') := by
  induction n generalizing m s s' with
  | zero => exact .undefL (.inl rfl)
  | succ n ih =>
    cases m with
    | zero => exact .undefR (.inl rfl)
    | succ m =>
    simp only [sepLoop]
    have done : Sm W st (Each Q) s s' (.ok [] s) (.ok [] s') := sm_same .nil hs
    have h := hsep s s' hs
    revert h
    generalize sep s = x, sep' s' = y
    intro h
    cases h with
    | @ok v v' r r' h a k1 k2 k3 =>
      dsimp only
      simp only [k3]
      split
      · exact done
      · have h := hp r r' a
        revert h
        generalize p r = x, p' r' = y
        intro h
        cases h with
        | @ok v v' q q' h b l1 l2 l3 =>
          dsimp only
          simp only [l3]
          have := k1.length_le; have := k2.length_le; have := l1.length_le; have := l2.length_le
          split
          · exact done
          · refine (sm_andThen (Q := Each Q) (ih m q q' b) (fun vs vs' q q' hh b => ?_) fun hst _ _ _ _ _ _ => ?_).mono
              id id (l1.trans k1) (l2.trans k2) (by omega)
            · exact sm_same (.cons h hh) b
            · exact .inr (.inl ⟨hst, ⟨_, rfl⟩, _, rfl⟩)
        | @stuck v v' q q' h a b l1 l2 l3 l4 =>
          dsimp only
          rw [if_neg (by omega), if_neg (by omega)]
          have := k1.length_le; have := k2.length_le
          rcases sepLoop_stuck (p := p) ks n a with e | e
          · rcases sepLoop_stuck (p := p') ks' m b with e' | e'
            · rw [e, e', andThen_ok, andThen_ok]
              exact .stuck h a b (l1.trans k1) (l2.trans k2) (by omega) (by omega)
            · exact .undefR (undef_andThen e')
          · exact .undefL (undef_andThen e)
        | err => exact done
        | undefL h =>
          rcases h with rfl | rfl
          · exact .undefL (.inl rfl)
          · exact .undefL (.inr rfl)
        | undefR h =>
          rcases h with rfl | rfl
          · exact .undefR (.inl rfl)
          · exact .undefR (.inr rfl)
    | stuck h => exact h.elim
    | err => exact done
    | undefL h =>
      rcases h with rfl | rfl
      · exact .undefL (.inl rfl)
      · exact .undefL (.inr rfl)
    | undefR h =>
      rcases h with rfl | rfl
      · exact .undefR (.inl rfl)
      · exact .undefR (.inr rfl)

/-- The tail of a list after its first element. -/
theorem sm_sepTail {sep : Parser α} {sep' : Parser β} {p : Parser γ} {p' : Parser δ} (hsep : S W False R sep sep')
    (ks : KS sep) (ks' : KS sep') (hp : S W st Q p p') {s s' : Str} {x : Res γ} {y : Res δ} (h : Sm W st Q s s' x y) :
    Sm W st (Each Q) s s'
      (x.andThen fun v r => if r.length = s.length then .err
        else (sepLoop sep p (r.length + 1) r).andThen fun vs r' => .ok (v :: vs) r')
      (y.andThen fun v r => if r.length = s'.length then .err
        else (sepLoop sep' p' (r.length + 1) r).andThen fun vs r' => .ok (v :: vs) r') := by
  cases h with
  | @ok v v' r r' h a k1 k2 k3 =>
    simp only [andThen_ok, k3]
    split
    · exact .err
    · refine (sm_andThen (Q := Each Q) (sm_sepLoop hsep ks ks' hp _ _ r r' a) (fun vs vs' q q' hh b => ?_)
        fun hst _ _ _ _ _ _ => ?_).mono id id k1 k2 k3
      · exact sm_same (.cons h hh) b
      · exact .inr (.inl ⟨hst, ⟨_, rfl⟩, _, rfl⟩)
  | @stuck v v' r r' h a b k1 k2 k3 k4 =>
    simp only [andThen_ok]
    rw [if_neg (by omega), if_neg (by omega)]
    rcases sepLoop_stuck (p := p) ks (r.length + 1) a with e | e
    · rcases sepLoop_stuck (p := p') ks' (r'.length + 1) b with e' | e'
      · rw [e, e', andThen_ok, andThen_ok]
        exact .stuck h a b k1 k2 k3 k4
      · exact .undefR (undef_andThen e')
    · exact .undefL (undef_andThen e)
  | err => exact .err
  | undefL h => exact .undefL (undef_andThen h)
  | undefR h => exact .undefR (undef_andThen h)

theorem s_sepNonemptyList {sep : Parser α} {sep' : Parser β} {p : Parser γ} {p' : Parser δ} (hsep : S W False R sep sep')
    (ks : KS sep) (ks' : KS sep') (hp : S W st Q p p') :
    S W st (Each Q) (sepNonemptyList sep p) (sepNonemptyList sep' p') :=
  fun s s' hs => sm_sepTail hsep ks ks' hp (hp s s' hs)

theorem s_sepList {sep : Parser α} {sep' : Parser β} {p : Parser γ} {p' : Parser δ} (hsep : S W False R sep sep')
    (ks : KS sep) (ks' : KS sep') (hp : S W st Q p p') :
    S W st (Each Q) (sepList sep p) (sepList sep' p') := fun s s' hs => by
  have h := hp s s' hs
  have h' := sm_sepTail hsep ks ks' hp h
  unfold sepList
  revert h h'
  generalize p s = x, p' s' = y
  intro h h'
  cases h with
  | ok => exact h'
  | stuck => exact h'
  | err => exact sm_same .nil hs
  | undefL h =>
    rcases h with rfl | rfl
    · exact .undefL (.inl rfl)
    · exact .undefL (.inr rfl)
  | undefR h =>
    rcases h with rfl | rfl
    · exact .undefR (.inl rfl)
    · exact .undefR (.inr rfl)

theorem s_index {v : List α} {v' : List β} (h : Each R v v') (i : Nat) : S W st R (index v i) (index v' i) := fun s s' hs => by
  unfold index
  induction h generalizing i with
  | nil => exact .undefL (.inr rfl)
  | cons h _ ih =>
    cases i with
    | zero => exact sm_same h hs
    | succ i => exact ih i

theorem each_refl (v : List α) : Each Eq v v := by
  induction v with
  | nil => exact .nil
  | cons _ _ ih => exact .cons rfl ih
theorem each_eq {v v' : List α} (h : Each Eq v v') : v = v' := by
  induction h with
  | nil => rfl
  | cons h _ ih => rw [h, ih]
theorem both_eq {v v' : Option α} (h : Both Eq v v') : v = v' := by
  cases h with
  | none => rfl
  | some h => rw [h]
theorem both_refl (v : Option α) : Both Eq v v := by
  cases v with
  | none => exact .none
  | some h => exact .some rfl

/-- The parser reads the same from both texts and does not stop within words. -/
abbrev E (W : Str → Str → Prop) (p : Parser α) : Prop := S W False Eq p p

theorem e0 {p : Parser α} {q : α → Parser γ} {q' : α → Parser δ} (hp : E W p)
    (hq : ∀ v, S W st Q (q v) (q' v)) : S W st Q (p >>= q) (p >>= q') :=
  b0 hp fun v _ h => by cases h; exact hq v
theorem e_pmap {p : Parser α} {f : α → γ} {g : α → δ} (hp : E W p)
    (h : ∀ v, Q (f v) (g v)) : S W st Q (pmap p f) (pmap p g) := e0 hp fun v => s_pure (h v)
theorem e_opt {p : Parser α} (h : E W p) : E W (opt p) := s_mono (s_opt h) fun h => both_eq h
theorem e_mapRes {p : Parser α} (f : α → Option γ) (hp : E W p) : S W st Eq (mapRes p f) (mapRes p f) :=
  s_mapRes hp fun v v' h => by cases h; exact both_refl _

end Rn
end ElmParser
