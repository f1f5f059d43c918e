import Verif.Proofs.Regex

/-! C63: names, operators, strings and comments are what the regular expressions in the source denote. -/
namespace ElmParser
open Rx

/-- The regular expressions of /repo: src/ast/helpers.rs:22, 48, 54, 79, src/ast/expression/string.rs:9, 19,
src/ast/type_/mod.rs:11, src/ast/statement/comment.rs:7 (the same as helpers.rs:79). -/
def sourcePatterns : List Str :=
  [c!"^([a-z][a-zA-Z0-9_]*)", c!"^([A-Z][a-zA-Z0-9_]*)", c!"^([-+\\\\-\\\\/*=.$<>:&|^?%#@~!]+)", c!"^(.*)",
   c!"^(\\\\\\\\|\\\\\"|[^\"\\n])*", c!"^([^\"]*)", c!"^([a-z][a-z1-9_]*)"]

/-- Every parser that uses a regular expression, with the text of the expression read and searched for by the rules
of the crate `regex` and `re_matches!` as in nom, is the parser of the model. -/
theorem C63_parsers :
    Rx.loName = ElmParser.loName ∧ Rx.upName = ElmParser.upName ∧ Rx.operator = ElmParser.operator ∧
      Rx.singleLineComment = ElmParser.singleLineComment ∧ Rx.singleString = ElmParser.singleString ∧
      Rx.multiString = ElmParser.multiString ∧ Rx.typeVariable = ElmParser.typeVariable ∧
      Rx.lineCommentStatement = ElmParser.lineCommentStatement := by
  refine ⟨?_, ?_, ?_, ?_, ?_, ?_, ?_, ?_⟩
  · rw [Rx.loName, ElmParser.loName, loNameRe, re_loName]
  · rw [Rx.upName, ElmParser.upName, re_upName]
  · rw [Rx.operator, ElmParser.operator, re_op]
  · rw [Rx.singleLineComment, ElmParser.singleLineComment, re_line]
  · rw [Rx.singleString, ElmParser.singleString, re_string]
  · rw [Rx.multiString, ElmParser.multiString, re_multi]
  · rw [Rx.typeVariable, ElmParser.typeVariable, re_tyVar]
  · rw [Rx.lineCommentStatement, ElmParser.lineCommentStatement, re_line]

example : Rx.operator c!"<|\\ x" = .ok c!"<|\\" c!" x" := rfl
example : Rx.singleString c!"\"a\\\"b\" ++ \"c\"" = .ok c!"a\\\"b" c!" ++ \"c\"" := rfl
example : Rx.loName c!"if x" = .err := rfl

/-- The ends that the search tries are those of the matches, no more and no fewer. -/
theorem C63_search (re : Re) (p q : Pos) : q ∈ re.run p ↔ Matches re p q := mem_run_iff re p q

example : Matches (.star (.cls false [('a', 'z')])) (0, c!"ab") (1, c!"b") :=
  .more (q := (1, c!"b")) (.cls (by decide)) .stop

/-- A match is found at the first place of the text where there is one, and it is one. -/
theorem C63_leftmost (re : Re) (s : Str) (n : Nat) :
    (∀ a b, find re s n = some (a, b) → Matches re a b ∧ (∃ w, s = w ++ a.2 ∧ a.1 = n + w.length) ∧
      ∀ u v, s = u ++ v → n + u.length < a.1 → ∀ q, ¬Matches re (n + u.length, v) q) ∧
    (find re s n = none → ∀ u v, s = u ++ v → ∀ q, ¬Matches re (n + u.length, v) q) := by
  refine ⟨fun a b h => ?_, find_none⟩
  obtain ⟨h1, h2, h3⟩ := find_some h
  exact ⟨run_sound re a b (List.mem_of_head? h2), h1, h3⟩

example : find (.cls false [('0', '9')]) c!"ab1c" 0 = some ((2, c!"1c"), (3, c!"c")) := by decide +kernel

/-- Each expression of the source finds at most one match, at the beginning of the text: the vector of matches has
exactly one entry, so that `v[0]` is there, and matched text and rest are the text. -/
theorem C63_one_match (pat : Str) (hp : pat ∈ sourcePatterns) (s : Str) :
    Rx.reMatches pat s = .err ∨ ∃ m r, Rx.reMatches pat s = .ok [m] r ∧ s = m ++ r := by
  have key : ∀ {r : Re}, parse pat = some (.seq .start r) →
      Rx.reMatches pat s = .err ∨ ∃ m r, Rx.reMatches pat s = .ok [m] r ∧ s = m ++ r := by
    intro r h
    rw [reMatches_anchored h]
    cases hr : (r.run (0, s)).head? with
    | none => exact .inl rfl
    | some q =>
      obtain ⟨w, h1, h2⟩ := (run_sound r _ _ (List.mem_of_head? hr)).consumes
      refine .inr ⟨_, _, rfl, ?_⟩
      have h1 : s = w ++ q.2 := h1
      have h2 : q.1 = w.length := by simpa using h2
      rw [h2]
      conv => rhs; rw [h1]
      simpa using h1
  simp only [sourcePatterns, List.mem_cons, List.not_mem_nil, or_false] at hp
  rcases hp with rfl | rfl | rfl | rfl | rfl | rfl | rfl
  · exact key parse_loName
  · exact key parse_upName
  · exact key parse_op
  · exact key parse_line
  · exact key parse_string
  · exact key parse_multi
  · exact key parse_tyVar

example : c!"^(.*)" ∈ sourcePatterns ∧ Rx.reMatches c!"^(.*)" c!"ab\ncd" = .ok [c!"ab"] c!"\ncd" :=
  ⟨by decide, rfl⟩

/-- Except for strings, what is matched is the longest beginning of the text that the expression matches. -/
theorem C63_longest (pat : Str) (hp : pat ∈ sourcePatterns) (hs : pat ≠ c!"^(\\\\\\\\|\\\\\"|[^\"\\n])*")
    (s m r : Str) (h : Rx.reMatches pat s = .ok [m] r) :
    ∃ re, parse pat = some re ∧ Matches re (0, s) (m.length, r) ∧ ∀ q, Matches re (0, s) q → q.1 ≤ m.length := by
  have headTail : ∀ {n1 r1 n2 r2},
      parse pat = some (.seq .start (.seq (.cls n1 r1) (.star (.cls n2 r2)))) → 
      ∃ re, parse pat = some re ∧ Matches re (0, s) (m.length, r) ∧ ∀ q, Matches re (0, s) q → q.1 ≤ m.length := by
    intro n1 r1 n2 r2 hr
    have hm := h
    rw [reMatches_headTail hr] at hm
    refine ⟨_, hr, ?_, ?_⟩
    · cases s with
      | nil => simp [ElmParser.reMatches, reHeadTail] at hm
      | cons c s =>
        by_cases hc : inClass n1 r1 c = true
        · have hh := head_loop_cls n2 r2 s s.length 1 (Nat.le_refl _)
          simp only [ElmParser.reMatches, reHeadTail, hc, if_true, Res.ok.injEq, List.cons.injEq, and_true] at hm
          obtain ⟨rfl, rfl⟩ := hm
          refine .seq .start (.seq (.cls hc) ?_)
          refine loop_sound (run_sound _) s.length _ _ ?_
          rw [Nat.add_comm] at hh
          exact List.mem_of_head? hh
        · simp [ElmParser.reMatches, reHeadTail, hc] at hm
    · intro q hq
      cases hq with
      | seq h1 h2 =>
        cases h1
        cases h2 with
        | seq h1 h2 =>
          cases h1
          rename_i c s hc
          have := h2.star_cls_le _ _ rfl
          simp only [ElmParser.reMatches, reHeadTail, hc, if_true, Res.ok.injEq, List.cons.injEq, and_true] at hm
          rw [← hm.1, List.length_cons]
          simp only at this
          omega
  have star : ∀ {n1 r1}, parse pat = some (.seq .start (.star (.cls n1 r1))) → 
      ∃ re, parse pat = some re ∧ Matches re (0, s) (m.length, r) ∧ ∀ q, Matches re (0, s) q → q.1 ≤ m.length := by
    intro n1 r1 hr
    have hm := h
    rw [reMatches_star hr] at hm
    simp only [ElmParser.reMatches, reStar, Res.ok.injEq, List.cons.injEq, and_true] at hm
    obtain ⟨rfl, rfl⟩ := hm
    refine ⟨_, hr, .seq .start ?_, ?_⟩
    · have hh := head_loop_cls n1 r1 s s.length 0 (Nat.le_refl _)
      rw [Nat.zero_add] at hh
      exact loop_sound (run_sound _) s.length _ _ (List.mem_of_head? hh)
    · intro q hq
      cases hq with
      | seq h1 h2 =>
        cases h1
        simpa using h2.star_cls_le _ _ rfl
  have plus : ∀ {n1 r1}, parse pat = some (.seq .start (.plus (.cls n1 r1))) → 
      ∃ re, parse pat = some re ∧ Matches re (0, s) (m.length, r) ∧ ∀ q, Matches re (0, s) q → q.1 ≤ m.length := by
    intro n1 r1 hr
    have hm := h
    rw [reMatches_plus hr, rePlus] at hm
    refine ⟨_, hr, ?_, ?_⟩
    · cases s with
      | nil => simp [ElmParser.reMatches, reHeadTail] at hm
      | cons c s =>
        by_cases hc : inClass n1 r1 c = true
        · have hh := head_loop_cls n1 r1 s s.length 1 (Nat.le_refl _)
          simp only [ElmParser.reMatches, reHeadTail, hc, if_true, Res.ok.injEq, List.cons.injEq, and_true] at hm
          obtain ⟨rfl, rfl⟩ := hm
          refine .seq .start (.plus (.cls hc) ?_)
          refine loop_sound (run_sound _) s.length _ _ ?_
          rw [Nat.add_comm] at hh
          exact List.mem_of_head? hh
        · simp [ElmParser.reMatches, reHeadTail, hc] at hm
    · intro q hq
      cases hq with
      | seq h1 h2 =>
        cases h1
        cases h2 with
        | plus h1 h2 =>
          cases h1
          rename_i c s hc
          have := h2.star_cls_le _ _ rfl
          simp only [ElmParser.reMatches, reHeadTail, hc, if_true, Res.ok.injEq, List.cons.injEq, and_true] at hm
          rw [← hm.1, List.length_cons]
          simp only at this
          omega
  simp only [sourcePatterns, List.mem_cons, List.not_mem_nil, or_false] at hp
  rcases hp with rfl | rfl | rfl | rfl | rfl | rfl | rfl
  · exact headTail parse_loName
  · exact headTail parse_upName
  · exact plus parse_op
  · exact star parse_line
  · exact absurd rfl hs
  · exact star parse_multi
  · exact headTail parse_tyVar

example : Rx.reMatches c!"^([a-z][a-z1-9_]*)" c!"a1b0c" = .ok [c!"a1b"] c!"0c" := rfl

/-- For strings it is not: the pair of backslashes is preferred to a single one, so that the string in `"\\"a"` ends at
the second quote although the expression also matches up to the third. -/
theorem C63_strings_preferred : ∃ re s m r q, parse c!"^(\\\\\\\\|\\\\\"|[^\"\\n])*" = some re ∧
    Rx.reMatches c!"^(\\\\\\\\|\\\\\"|[^\"\\n])*" s = .ok [m] r ∧ Matches re (0, s) q ∧ m.length < q.1 := by
  refine ⟨_, c!"\\\\\"a\"", c!"\\\\", c!"\"a\"", (4, c!"\""), parse_string, rfl, ?_, by decide⟩
  exact (mem_run_iff _ _ _).mp (by decide +kernel)

/-- A string goes on over pairs of backslashes, over a backslash with a quote, and over other characters; `stringBody`
is the preferred match whatever the text. -/
theorem C63_string (s : Str) :
    Rx.reMatches c!"^(\\\\\\\\|\\\\\"|[^\"\\n])*" s = .ok [(stringBody s).1] (stringBody s).2 := by
  rw [re_string]; rfl

example : stringBody c!"a\\\"b\\\\\" c" = (c!"a\\\"b\\\\", c!"\" c") := by decide +kernel
example := C63_one_match c!"^([A-Z][a-zA-Z0-9_]*)" (by decide) c!"Abc d"
example := C63_longest c!"^([A-Z][a-zA-Z0-9_]*)" (by decide) (by decide) c!"Abc d" c!"Abc" c!" d" rfl

end ElmParser
