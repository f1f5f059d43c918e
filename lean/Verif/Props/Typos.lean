import Verif.Props.Blocks

/-! C74: a slip in a single bracket or framing word makes a file fail. -/
namespace ElmParser
open Spec

/-! ### C74 -/

/-- C74: when in an accepted file without strings, character literals and comments one bracket is replaced by anything
without brackets (nothing, in particular), the result is rejected. -/
theorem C74_bracket_lost {a b u : Str} {x : Char} {sts : List Statement} (h : file (a ++ x :: b) = .ok sts [])
    (hx : Bracket x) (hu : ∀ c ∈ u, ¬ Bracket c) (hb : Bare (a ++ x :: b)) (hb' : Bare (a ++ u ++ b)) :
    file (a ++ u ++ b) = .err := by
  rcases C01_file_total (a ++ u ++ b) with h' | ⟨sts', h'⟩
  · exact h'
  · exfalso
    have h1 := C68_count h hb
    have h2 := C68_count h' hb'
    have hz : ∀ c, Bracket c → u.count c = 0 := fun c hc => List.count_eq_zero.2 fun hm => hu c hm hc
    simp only [List.count_append, List.count_cons, hz '(' (by decide), hz ')' (by decide), hz '[' (by decide),
      hz ']' (by decide), hz '{' (by decide), hz '}' (by decide)] at h1 h2
    simp only [Bracket, List.mem_cons, List.not_mem_nil, or_false] at hx
    rcases hx with rfl | rfl | rfl | rfl | rfl | rfl <;> simp at h1 h2 <;> omega

/-- C74: and so is the result of putting a single bracket anywhere into an accepted file. -/
theorem C74_bracket_added {a b : Str} {x : Char} {sts : List Statement} (h : file (a ++ b) = .ok sts [])
    (hx : Bracket x) (hb : Bare (a ++ b)) (hb' : Bare (a ++ x :: b)) : file (a ++ x :: b) = .err := by
  rcases C01_file_total (a ++ x :: b) with h' | ⟨sts', h'⟩
  · exact h'
  · exfalso
    have := C74_bracket_lost (u := []) h' hx (by simp) hb' (by simpa using hb)
    rw [List.append_nil, h] at this
    cases this

/-- C74: or of writing another bracket in the place of one. -/
theorem C74_bracket_changed {a b : Str} {x y : Char} {sts : List Statement} (h : file (a ++ x :: b) = .ok sts [])
    (hx : Bracket x) (hxy : x ≠ y) (hb : Bare (a ++ x :: b)) (hb' : Bare (a ++ y :: b)) :
    file (a ++ y :: b) = .err := by
  by_cases hy : Bracket y
  · rcases C01_file_total (a ++ y :: b) with h' | ⟨sts', h'⟩
    · exact h'
    · exfalso
      have h1 := C68_count h hb
      have h2 := C68_count h' hb'
      simp only [List.count_append, List.count_cons] at h1 h2
      simp only [Bracket, List.mem_cons, List.not_mem_nil, or_false] at hx hy
      rcases hx with rfl | rfl | rfl | rfl | rfl | rfl <;> rcases hy with rfl | rfl | rfl | rfl | rfl | rfl <;>
        simp at h1 h2 hxy <;> omega
  · simpa using C74_bracket_lost (u := [y]) h hx (by simpa using hy) hb (by simpa using hb')

example : file c!"f = g (x, 1 ]" = .err :=
  C74_bracket_changed (a := c!"f = g (x, 1 ") (b := []) (x := ')') (y := ']') rfl (by decide) (by decide) (bare_of_check rfl)
    (bare_of_check rfl)
example : file c!"f = g x, 1)" = .err :=
  C74_bracket_lost (a := c!"f = g ") (b := c!"x, 1)") (u := []) (x := '(') rfl (by decide) (by simp) (bare_of_check rfl)
    (bare_of_check rfl)
example : file c!"f = { a | b = [1] } }\n\ng = 1" = .err :=
  C74_bracket_added (a := c!"f = { a | b = [1] } ") (b := c!"\n\ng = 1") rfl (by decide) (bare_of_check rfl) (bare_of_check rfl)

/-- The text `w` between `a` and `b` is a word of its own. -/
def Whole (a b : Str) : Prop := (∀ c, a.getLast? = some c → ¬ IdentChar c) ∧ (∀ c, b.head? = some c → ¬ IdentChar c)

theorem marksFrom_word {w b : Str} (hw : ∀ c ∈ w, IdentChar c) (hb : ∀ c, b.head? = some c → ¬ IdentChar c) (u : Str) :
    marksFrom u (w ++ b) = markWord (u ++ w) ++ marks b := by
  induction w generalizing u with
  | nil =>
    cases b with
    | nil => simp [marksFrom, marks, markWord, blockWords]
    | cons c b => simp [marksFrom, marks, markWord, blockWords, hb c rfl]
  | cons c w ih =>
    have hc : IdentChar c := hw c (by simp)
    rw [List.cons_append, marksFrom, if_pos hc, ih (fun c h => hw c (by simp [h]))]
    simp

theorem marksFrom_cut {c : Char} (hc : ¬ IdentChar c) (t : Str) : ∀ (a u : Str),
    marksFrom u (a ++ c :: t) = marksFrom u (a ++ [c]) ++ marks t
  | [], u => by simp [marksFrom, hc, marks, markWord, blockWords]
  | d :: a, u => by
    by_cases hd : IdentChar d
    · simp only [List.cons_append, marksFrom, if_pos hd, marksFrom_cut hc t a]
    · simp only [List.cons_append, marksFrom, if_neg hd, marksFrom_cut hc t a, List.append_assoc]

theorem marks_word {a w b : Str} (hw : ∀ c ∈ w, IdentChar c) (h : Whole a b) :
    marks (a ++ w ++ b) = marks a ++ markWord w ++ marks b := by
  rcases List.eq_nil_or_concat a with rfl | ⟨a', c, rfl⟩
  · simpa [marks, marksFrom, markWord, blockWords] using marksFrom_word hw h.2 []
  · have hc := h.1 c (by simp)
    have := marksFrom_cut hc (w ++ b) a' []
    simp only [marks, List.concat_eq_append, List.append_assoc, List.cons_append, List.nil_append] at this ⊢
    rw [this, marksFrom_word hw h.2, List.nil_append, marks]

/-- C74: when in an accepted file without strings, character literals and comments one of the words `let`, `in`, `if`,
`then`, `else`, `case`, `of` is misspelt, replaced by another word or left out, the result is rejected, unless a type
variable of it has one of these names. -/
theorem C74_word {a b w w' : Str} {sts : List Statement} (h : file (a ++ w ++ b) = .ok sts []) (hw : w ∈ blockWords)
    (hi : ∀ c ∈ w', IdentChar c) (hn : w ≠ w') (ho : Whole a b) (hb : Bare (a ++ w ++ b)) (hb' : Bare (a ++ w' ++ b))
    (hv : ∀ x ∈ sts, ∀ n ∈ statementTyVars x, n ∉ blockWords) :
    file (a ++ w' ++ b) = .err ∨
      ∃ sts', file (a ++ w' ++ b) = .ok sts' [] ∧ ∃ x ∈ sts', ∃ n ∈ statementTyVars x, n ∈ blockWords := by
  rcases C01_file_total (a ++ w' ++ b) with h' | ⟨sts', h'⟩
  · exact .inl h'
  · refine .inr ⟨sts', h', ?_⟩
    by_cases hv' : ∃ x ∈ sts', ∃ n ∈ statementTyVars x, n ∈ blockWords
    · exact hv'
    exfalso
    have h1 := C70_count h hb hv
    have h2 := C70_count h' hb' fun x hx n hn hm => hv' ⟨x, hx, n, hn, hm⟩
    have hwi : ∀ c ∈ w, IdentChar c := by
      simp only [blockWords, List.mem_cons, List.not_mem_nil, or_false] at hw
      rcases hw with rfl | rfl | rfl | rfl | rfl | rfl | rfl <;> decide
    rw [marks_word hwi ho] at h1
    rw [marks_word hi ho] at h2
    simp only [List.count_append] at h1 h2
    by_cases hw' : w' ∈ blockWords
    · simp only [markWord, if_pos hw, if_pos hw'] at h1 h2
      simp only [blockWords, List.mem_cons, List.not_mem_nil, or_false] at hw hw'
      rcases hw with rfl | rfl | rfl | rfl | rfl | rfl | rfl <;>
        rcases hw' with rfl | rfl | rfl | rfl | rfl | rfl | rfl <;>
        simp at h1 h2 hn <;> omega
    · simp only [markWord, if_pos hw, if_neg hw'] at h1 h2
      simp only [blockWords, List.mem_cons, List.not_mem_nil, or_false] at hw
      rcases hw with rfl | rfl | rfl | rfl | rfl | rfl | rfl <;> simp at h1 h2 <;> omega

/-- `tehn`. -/
example := C74_word (a := c!"f : a -> b\nf x = if x ") (w := c!"then") (w' := c!"tehn") (b := c!" 1 else 2") rfl (by decide)
  (by decide) (by decide) ⟨by rintro c ⟨⟩; decide, by rintro c ⟨⟩; decide⟩ (bare_of_check rfl) (bare_of_check rfl)
  (by simp [statementTyVars, functionTyVars, exprTyVars, exprsTyVars, tyVars, blockWords])

/-- C74: without a colon and without `type` it is always rejected. -/
theorem C74_word_text {a b w w' : Str} {sts : List Statement} (h : file (a ++ w ++ b) = .ok sts []) (hw : w ∈ blockWords)
    (hi : ∀ c ∈ w', IdentChar c) (hn : w ≠ w') (ho : Whole a b) (hb : Bare (a ++ w ++ b)) (hb' : Bare (a ++ w' ++ b))
    (hc : ((':' : Char) ∉ a ++ b)) (ht : ∀ x y, a ++ w' ++ b ≠ x ++ c!"type" ++ y)
    (ht' : ∀ x y, a ++ w ++ b ≠ x ++ c!"type" ++ y) :
    file (a ++ w' ++ b) = .err := by
  have hcw : ∀ u : Str, (∀ c ∈ u, IdentChar c) → (':' : Char) ∉ a ++ u ++ b := by
    intro u hu hm
    simp only [List.mem_append] at hm hc
    rcases hm with (hm | hm) | hm
    · exact hc (.inl hm)
    · exact absurd (hu _ hm) (by decide)
    · exact hc (.inr hm)
  have hwi : ∀ c ∈ w, IdentChar c := by
    simp only [blockWords, List.mem_cons, List.not_mem_nil, or_false] at hw
    rcases hw with rfl | rfl | rfl | rfl | rfl | rfl | rfl <;> decide
  rcases C74_word h hw hi hn ho hb hb' (fun x hx n hn => by
      rw [file_noColon (file_sound h).2 (hcw w hwi) ht' x hx] at hn; cases hn) with h' | ⟨sts', h', x, hx, n, hn, -⟩
  · exact h'
  · rw [file_noColon (file_sound h').2 (hcw w' hi) ht x hx] at hn
    cases hn

/-- A missing `in`. -/
example : file c!"f = let a = 1\n   a" = .err :=
  C74_word_text (a := c!"f = let a = 1\n  ") (w := c!"in") (w' := []) (b := c!" a") rfl (by decide) (by simp) (by decide)
    ⟨by rintro c ⟨⟩; decide, by rintro c ⟨⟩; decide⟩ (bare_of_check rfl) (bare_of_check rfl) (by decide) (absent_of rfl)
    (absent_of rfl)

end ElmParser
