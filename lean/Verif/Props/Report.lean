import Verif.Props.Output
import Verif.Props.Statements

/-! What the two binaries report about a file that does not parse: C47. -/
namespace ElmParser
open Spec

/-- Reading the statements `xs` one after the other from `s`, with white space between them, leaves `r`. -/
inductive Listing : List Statement → Str → Str → Prop
  | last {s x r} : statement s = .ok x r → Listing [x] s r
  | more {s x w t xs r} : statement s = .ok x (w ++ t) → (∀ c ∈ w, White c) → w ≠ [] → Listing xs t r →
      Listing (x :: xs) s r

theorem Listing.notWhite {xs : List Statement} {s r : Str} (h : Listing xs s r) : Next (fun c => ¬ White c) s := by
  cases h with
  | last h => exact statement_notWhite h
  | more h => exact statement_notWhite h

theorem listing_iff {l : List Statement} {s r : Str} :
    Listing l s r ↔ ∃ x t xs, l = x :: xs ∧ statement s = .ok x t ∧ Run (preceded multispace statement) t xs r := by
  constructor
  · intro h
    induction h with
    | last h => exact ⟨_, _, [], rfl, h, .nil _⟩
    | @more s x w t xs r h hw hne hr ih =>
      obtain ⟨y, u, ys, rfl, h1, h2⟩ := ih
      refine ⟨x, _, y :: ys, rfl, h, run_cons (cons_preceded' cons_multispace cons_statement) (r := u) ?_ h2⟩
      exact preceded_eq_ok.2 ⟨w, t, multispace_iff.2 ⟨rfl, hne, hw, hr.notWhite⟩, h1⟩
  · rintro ⟨x, t, xs, rfl, h1, h2⟩
    induction h2 generalizing s x with
    | nil => exact .last h1
    | @cons t u r y ys h3 _ _ ih =>
      obtain ⟨w, t', h4, h5⟩ := preceded_eq_ok.1 h3
      obtain ⟨rfl, hne, hw, -⟩ := multispace_iff.1 h4
      exact .more h1 hw hne (ih y h5)

theorem statements_white {w t : Str} (hw : Whites w) (ht : Next (fun c => ¬ White c) t) :
    statements (w ++ t) = (sepNonemptyList multispace statement t).andThen fun xs r =>
      (multispace0 r).andThen fun _ r' => .ok xs r' := by
  unfold statements
  rw [delimited_apply, multispace0_iff.2 ⟨rfl, hw, ht⟩, andThen_ok, sepNonemptyList_multispace0]

theorem statements_err {w t : Str} (hw : Whites w) (ht : Next (fun c => ¬ White c) t) (h : statement t = .err) :
    statements (w ++ t) = .err := by
  rw [statements_white hw ht, err_of (p := sepNonemptyList multispace statement) (s := t)]
  · rfl
  · exact fun k => cons_sepNonemptyList (cons_multispace k).good (cons_statement k).good
  · intro v u e
    obtain ⟨x, xs, r, -, e, -⟩ := (sepNonemptyList_iff cons_multispace cons_statement).1 e
    rw [h] at e; cases e

theorem step_err {w r : Str} (hw : Whites w) (hr : Next (fun c => ¬ White c) r) :
    preceded multispace statement (w ++ r) = .err ↔ w = [] ∨ statement r = .err := by
  rw [preceded_apply]
  by_cases hne : w = []
  · subst hne
    have : multispace r = .err := by
      refine err_of cons_multispace fun v u e => ?_
      obtain ⟨rfl, hne, hv, -⟩ := multispace_iff.1 e
      cases v with
      | nil => exact hne rfl
      | cons c v => exact hr c _ rfl (hv c (by simp))
    simp [this, Res.andThen]
  · rw [multispace_iff.2 ⟨rfl, hne, hw, hr⟩, andThen_ok]
    simp [hne]

theorem statements_ok {w t w' r : Str} {xs : List Statement} (hw : Whites w) (h : Listing xs t (w' ++ r))
    (hw' : Whites w') (hr : Next (fun c => ¬ White c) r) (hstop : w' = [] ∨ statement r = .err) :
    statements (w ++ t) = .ok xs r := by
  rw [statements_white hw h.notWhite]
  obtain ⟨x, u, xs, rfl, h1, h2⟩ := listing_iff.1 h
  rw [(sepNonemptyList_iff cons_multispace cons_statement).2 ⟨x, xs, u, rfl, h1, h2, (step_err hw' hr).2 hstop⟩,
    andThen_ok, multispace0_iff.2 ⟨rfl, hw', hr⟩]
  rfl

theorem split_white (s : Str) : ∃ w t, s = w ++ t ∧ Whites w ∧ Next (fun c => ¬ White c) t := by
  induction s with
  | nil => exact ⟨[], [], rfl, by simp [Whites], next_nil _⟩
  | cons c s ih =>
    by_cases hc : White c
    · obtain ⟨w, t, rfl, h1, h2⟩ := ih
      exact ⟨c :: w, t, rfl, List.forall_mem_cons.2 ⟨hc, h1⟩, h2⟩
    · exact ⟨[], c :: s, rfl, by simp [Whites], next_cons.2 hc⟩

/-- Every text falls into one of two cases. -/
theorem statements_cases (s : Str) : ∃ w t, s = w ++ t ∧ Whites w ∧ Next (fun c => ¬ White c) t ∧
    (statement t = .err ∨ ∃ xs w' r, Listing xs t (w' ++ r) ∧ Whites w' ∧ Next (fun c => ¬ White c) r ∧
      (w' = [] ∨ statement r = .err)) := by
  obtain ⟨w, t, rfl, hw, ht⟩ := split_white s
  refine ⟨w, t, rfl, hw, ht, ?_⟩
  rcases err_or_ok cons_statement t with e | ⟨x, u, e, -⟩
  · exact .inl e
  · right
    obtain ⟨xs, v, -, h1, h2⟩ := many0_total (cons_preceded' cons_multispace cons_statement) u
    obtain ⟨w', r, rfl, hw', hr⟩ := split_white v
    exact ⟨_, w', r, listing_iff.2 ⟨_, _, _, rfl, e, h1⟩, hw', hr, (step_err hw' hr).1 h2⟩

theorem next_left {P : Char → Prop} {a b : Str} (h : Next P (a ++ b)) : Next P a := by
  rintro c t rfl; exact h c (t ++ b) rfl

/-- The text that was read is a layout of the statements. -/
theorem Listing.src {xs : List Statement} {s w r : Str} (h : Listing xs s (w ++ r)) (hw : Whites w) :
    ∃ d, s = d ++ r ∧ Stmts False true xs d := by
  generalize hu : w ++ r = u at h
  induction h with
  | last h =>
    subst hu
    rcases statement_sound h with ⟨t, rfl, rfl, h4, h5⟩ | ⟨c, rfl, hc⟩
    · exact ⟨c!"--" ++ t ++ w, by simp, .line h4 (next_left h5) (.last hw)⟩
    · exact ⟨c ++ w, by simp, .stmt hc (.last hw)⟩
  | @more s x v t xs u h hv hne hl ih =>
    obtain ⟨d, rfl, hd⟩ := ih hu
    have hs : Stmts False false xs (v ++ d) := .sep hv hne (fun h => h.elim) hd
    rcases statement_sound h with ⟨t, rfl, rfl, h4, h5⟩ | ⟨c, rfl, hc⟩
    · refine ⟨c!"--" ++ t ++ (v ++ d), by simp, .line h4 (next_left (b := r) ?_) hs⟩
      rwa [List.append_assoc]
    · exact ⟨c ++ (v ++ d), by simp, .stmt hc hs⟩

theorem file_of_statements {s r : Str} {xs : List Statement} (h : statements s = .ok xs r) (hr : r ≠ []) :
    file s = .err := by
  unfold file
  rw [terminated_apply, h, andThen_ok]
  cases r with
  | nil => exact absurd rfl hr
  | cons => rfl

/-- C47: when there is no statement at the first character that is not white, the error is that of the statement. -/
theorem C47_nothing {w t : Str} (hw : ∀ c ∈ w, White c) (ht : ∀ c u, t = c :: u → ¬ White c) (h : statement t = .err) :
    file (w ++ t) = .err ∧ failure (w ++ t) = .other := by
  have e := statements_err hw ht h
  refine ⟨?_, by simp only [failure, e]⟩
  unfold file
  rw [terminated_apply, e]
  rfl

/-- C47: when reading statements stops before the end, the error shows exactly the text that was not read,
from the first character that is not white: either it directly follows a statement or no statement starts there. -/
theorem C47_stopped {w t w' r : Str} {xs : List Statement} (hw : ∀ c ∈ w, White c) (h : Listing xs t (w' ++ r))
    (hw' : ∀ c ∈ w', White c) (hr : ∀ c u, r = c :: u → ¬ White c) (hstop : w' = [] ∨ statement r = .err) (hne : r ≠ []) :
    file (w ++ t) = .err ∧ failure (w ++ t) = .eof r := by
  have e := statements_ok hw h hw' hr hstop
  exact ⟨file_of_statements e hne, by simp only [failure, e]⟩

/-- C47: there are no other cases. -/
theorem C47_cases {s : Str} (h : file s = .err) :
    (∃ w t, s = w ++ t ∧ (∀ c ∈ w, White c) ∧ (∀ c u, t = c :: u → ¬ White c) ∧ statement t = .err ∧
      failure s = .other) ∨
    ∃ w t xs w' r, s = w ++ t ∧ (∀ c ∈ w, White c) ∧ Listing xs t (w' ++ r) ∧ (∀ c ∈ w', White c) ∧
      (∀ c u, r = c :: u → ¬ White c) ∧ (w' = [] ∨ statement r = .err) ∧ r ≠ [] ∧ failure s = .eof r := by
  obtain ⟨w, t, rfl, hw, ht, h1 | ⟨xs, w', r, h1, hw', hr, h2⟩⟩ := statements_cases s
  · exact .inl ⟨w, t, rfl, hw, ht, h1, (C47_nothing hw ht h1).2⟩
  · refine .inr ⟨w, t, xs, w', r, rfl, hw, h1, hw', hr, h2, ?_, ?_⟩
    · rintro rfl
      have := statements_ok hw h1 hw' hr h2
      unfold file at h
      rw [terminated_apply, this, andThen_ok] at h
      cases h
    · simp only [failure, statements_ok hw h1 hw' hr h2]

/-- C47: the text before the unread text is a layout of the statements that were read, and there is at least one. -/
theorem C47_before {s r : Str} (h : failure s = .eof r) :
    ∃ xs d, s = d ++ r ∧ FileSrc False xs d ∧ xs ≠ [] ∧ ∀ c u, r = c :: u → ¬ White c := by
  obtain ⟨w, t, rfl, hw, ht, h1 | ⟨xs, w', r', h1, hw', hr, h2⟩⟩ := statements_cases s
  · rw [(C47_nothing hw ht h1).2] at h; cases h
  · simp only [failure, statements_ok hw h1 hw' hr h2, Failure.eof.injEq] at h
    subst h
    obtain ⟨d, rfl, hd⟩ := h1.src hw'
    refine ⟨xs, w ++ d, by simp, ⟨w, d, rfl, hw, hd⟩, ?_, hr⟩
    rintro rfl
    cases h1

/-- How the error of `eof!` is printed. -/
def eofText (st : Style) (r : Str) : Str :=
  c!"Error(\n    Code(\n        CompleteStr(\n            " ++ strText st r ++ commaAfter st true ++
    c!"\n        ),\n        Eof" ++ commaAfter st true ++ c!"\n    )" ++ commaAfter st true ++ c!"\n)\n"

theorem msgText_eof (st : Style) (e r : Str) : msgText st e (.error (.eof r)) = eofText st r := by
  simp [msgText, dbgEof, render, renderItems, line, commaAfter, eofText, List.replicate]

/-- C47: the whole output of both binaries in that case. -/
theorem C47_text {st : Style} {e s r : Str} {read : Str → Read} {f : Str} (hs : file s = .err) (h : failure s = .eof r)
    (hr : read f = .contents s) :
    (∀ prog more, stdout st e (checkMain read (prog :: f :: more)) = eofText st r) ∧
    ∀ isDir walk, isDir f = some false → stdout st e (dumpMain read isDir walk (some f) false) = eofText st r := by
  constructor
  · intro prog more
    rcases C32_readable (prog := prog) more hr with ⟨sts, h1, -⟩ | ⟨-, h1⟩
    · rw [hs] at h1; cases h1
    · rw [h1, h]
      simp only [stdout, List.flatMap_cons, List.flatMap_nil, List.append_nil, msgText_eof]
  · intro isDir walk hd
    have : dumpMain read isDir walk (some f) false = ⟨[.error (.eof r)], .code 0⟩ := by
      simp [dumpMain, hd, dumpFile, hr, hs, h]
    rw [this]
    simp only [stdout, List.flatMap_cons, List.flatMap_nil, List.append_nil, msgText_eof]

/-- C47: the unread text can be told from the output. -/
theorem C47_unique {st : Style} {r r' : Str} (h : eofText st r = eofText st r') : r = r' := by
  simp only [eofText, List.append_assoc] at h
  exact (strText_inj (List.append_cancel_left h)).1

/-- C47: the output for an accepted file is never one for a file that was not read to its end: neither a tree nor a
list of names is printed like that. -/
theorem C47_distinct (st : Style) (e r : Str) (sts : List Statement) (ns : List Name) :
    msgText st e (.tree sts) ≠ eofText st r ∧ msgText st e (.names ns) ≠ eofText st r := by
  constructor
  · intro h
    cases sts <;> simp [msgText, render, eofText] at h
  · intro h
    cases ns <;> simp [msgText, render, dbgNames, eofText] at h

/-- The second definition has no body. -/
example : file c!"x = 1\n\ny =\n" = .err ∧ failure c!"x = 1\n\ny =\n" = .eof c!"y =\n" :=
  C47_stopped (w := []) (t := c!"x = 1\n\ny =\n") (w' := c!"\n\n") (r := c!"y =\n") (by simp)
    (.last rfl) (by decide) (by rintro _ _ ⟨⟩; decide) (.inr rfl) (by simp)

/-- The comment directly follows a statement: it is shown although it is a statement. -/
example : file c!"infix 3 ++{- a -}" = .err ∧ failure c!"infix 3 ++{- a -}" = .eof c!"{- a -}" :=
  C47_stopped (w := []) (w' := []) (r := c!"{- a -}") (by simp)
    (.last rfl) (by decide) (by rintro _ _ ⟨⟩; decide) (.inl rfl) (by simp)

/-- Two statements before the error. -/
example : failure c!"\nimport A\nx = 1\n)" = .eof c!")" :=
  (C47_stopped (w := c!"\n") (t := c!"import A\nx = 1\n)") (w' := c!"\n") (r := c!")") (by decide)
    (.more (w := c!"\n") (t := c!"x = 1\n)") rfl (by decide) (by simp) (.last rfl))
    (by decide) (by rintro _ _ ⟨⟩; decide) (.inr rfl) (by simp)).2

/-- No statement at all. -/
example : file c!" \n1" = .err ∧ failure c!" \n1" = .other :=
  C47_nothing (w := c!" \n") (t := c!"1") (by decide) (by rintro _ _ ⟨⟩; decide) rfl

set_option maxRecDepth 20000 in
/-- What is printed. -/
example : stdout ⟨true, true, false, fun _ => false⟩ [] (checkMain (fun _ => .contents c!"x = 1\n\ny =\n")
    [c!"check", c!"a.elm"]) = c!"Error(
    Code(
        CompleteStr(
            \"y =\\n\",
        ),
        Eof,
    ),
)
" := rfl
example := C47_cases (s := c!"x = 1\n\ny =\n") rfl
example := C47_before (s := c!"x = 1\n\ny =\n") (r := c!"y =\n") rfl
example := C47_text (st := ⟨true, true, false, fun _ => false⟩) (e := []) (s := c!"x = 1\n\ny =\n") (r := c!"y =\n")
  (read := fun _ => .contents c!"x = 1\n\ny =\n") (f := c!"a.elm") rfl rfl rfl
example := C47_unique (st := ⟨true, true, false, fun _ => false⟩) (r := c!"y =\n") (r' := c!"y =\n") rfl

end ElmParser
