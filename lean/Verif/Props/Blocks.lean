import Verif.Proofs.Blocks
import Verif.Proofs.BlocksCode
import Verif.Proofs.TypeVars
import Verif.Props.Scan

/-! C70: `let … in`, `case … of` and `if … then … else` are matched, together with the brackets. -/
namespace ElmParser
open Spec

/-- C70: the scanner that also matches the words accepts every text the parser accepts, or gives up, unless a type
variable is one of the words. -/
theorem C70_scan {s r : Str} {sts : List Statement} (h : file s = .ok sts r)
    (hv : ∀ x ∈ sts, ∀ n ∈ statementTyVars x, n ∉ blockWords) : scansWords s = true :=
  fileSrc_scan (file_sound h).2 fun x hx _ => hv x hx

/-- C70: a text that this scanner rejects is no file, or has one of the words as a type variable. -/
theorem C70_reject {s : Str} (h : scansWords s = false) :
    file s = .err ∨ ∃ sts, file s = .ok sts [] ∧ ∃ x ∈ sts, ∃ n ∈ statementTyVars x, n ∈ blockWords := by
  rcases C01_file_total s with h' | ⟨sts, h'⟩
  · exact .inl h'
  · refine .inr ⟨sts, h', ?_⟩
    by_cases hv : ∃ x ∈ sts, ∃ n ∈ statementTyVars x, n ∈ blockWords
    · exact hv
    · rw [C70_scan h' fun x hx n hn hm => hv ⟨x, hx, n, hn, hm⟩] at h
      cases h

/-- C70: without a colon and without `type` there are no type variables: a text that this scanner rejects is no file. -/
theorem C70_text {s : Str} (h : scansWords s = false) (hc : ((':' : Char) ∉ s)) (ht : ∀ a b, s ≠ a ++ c!"type" ++ b) :
    file s = .err := by
  rcases C70_reject h with h' | ⟨sts, h', x, hx, n, hn, -⟩
  · exact h'
  · rw [file_noColon (file_sound h').2 hc ht x hx] at hn
    cases hn

/-- C70: in a file without strings, character literals and comments the words and brackets are properly nested. -/
theorem C70_nested {s r : Str} {sts : List Statement} (h : file s = .ok sts r) (hb : Bare s)
    (hv : ∀ x ∈ sts, ∀ n ∈ statementTyVars x, n ∉ blockWords) : Blocks (marks s) :=
  scansWords_blocks hb (C70_scan h hv)

theorem Spec.Blocks.count {ms : List Str} (h : Blocks ms) : ms.count c!"let" = ms.count c!"in" ∧
    ms.count c!"case" = ms.count c!"of" ∧ ms.count c!"if" = ms.count c!"then" ∧ ms.count c!"if" = ms.count c!"else" := by
  induction h with
  | nil => exact ⟨rfl, rfl, rfl, rfl⟩
  | bracket _ _ _ ih1 ih2 =>
    simp [List.count_append, ih1, ih2]
    omega
  | let_ _ _ ih1 ih2 =>
    simp [List.count_append, ih1, ih2]
    omega
  | case_ _ _ ih1 ih2 =>
    simp [List.count_append, ih1, ih2]
    omega
  | if_ _ _ _ ih1 ih2 ih3 =>
    simp [List.count_append, ih1, ih2, ih3]
    omega

/-- C70: such a file has as many `in` as `let`, as many `of` as `case`, and as many `then` and `else` as `if`. -/
theorem C70_count {s r : Str} {sts : List Statement} (h : file s = .ok sts r) (hb : Bare s)
    (hv : ∀ x ∈ sts, ∀ n ∈ statementTyVars x, n ∉ blockWords) :
    (marks s).count c!"let" = (marks s).count c!"in" ∧ (marks s).count c!"case" = (marks s).count c!"of" ∧
    (marks s).count c!"if" = (marks s).count c!"then" ∧ (marks s).count c!"if" = (marks s).count c!"else" :=
  (C70_nested h hb hv).count

/-- C70: in every file that the scanner reads to its end, with strings, character literals and comments too, the words and
brackets outside them are properly nested. -/
theorem C70_code {s r : Str} {sts : List Statement} (h : file s = .ok sts r) (hs : Clear s)
    (hv : ∀ x ∈ sts, ∀ n ∈ statementTyVars x, n ∉ blockWords) : Blocks (marks (code s)) := by
  have h1 := C68_scan h
  unfold scans scansWith at h1
  unfold Clear at hs
  cases h2 : scanFrom false (.at .gap []) s with
  | none => rw [h2] at h1; cases h1
  | some σ =>
    cases σ with
    | unclear => exact absurd h2 hs
    | «at» p k => exact closesMarks_blocks (code_marks (C70_scan h hv) h2)

/-- C70: and as many of them are `in` as `let`, `of` as `case`, and `then` and `else` as `if`. -/
theorem C70_code_count {s r : Str} {sts : List Statement} (h : file s = .ok sts r) (hs : Clear s)
    (hv : ∀ x ∈ sts, ∀ n ∈ statementTyVars x, n ∉ blockWords) :
    (marks (code s)).count c!"let" = (marks (code s)).count c!"in" ∧
    (marks (code s)).count c!"case" = (marks (code s)).count c!"of" ∧
    (marks (code s)).count c!"if" = (marks (code s)).count c!"then" ∧
    (marks (code s)).count c!"if" = (marks (code s)).count c!"else" :=
  (C70_code h hs hv).count

/-- Words in a string, in a character literal's neighbourhood and in comments. -/
example : marks (code c!"f = (if g \"let\" 'i' then a -- case\n else {- of -} b)") =
    [c!"(", c!"if", c!"then", c!"else", c!")"] := rfl
example : Blocks (marks (code c!"f = (if g \"let\" 'i' then a else b)\n\n{- of -}\n-- case")) :=
  C70_code (r := []) (sts := _) rfl nofun (by simp [statementTyVars, functionTyVars, exprTyVars, exprsTyVars])
example := C70_code_count (s := c!"f = (if g \"let\" 'i' then a else b)\n\n{- of -}\n-- case") (r := []) (sts := _) rfl nofun
  (by simp [statementTyVars, functionTyVars, exprTyVars, exprsTyVars])
/-- A `let` inside the condition of an `if` inside brackets. -/
example : Blocks (marks c!"f = (if let a = 1 in a then letter else if b then c else d)") :=
  C70_nested (sts := _) (r := []) rfl (bare_of_check rfl) (by simp [statementTyVars, functionTyVars, exprTyVars, exprsTyVars,
    entriesTyVars, entryTyVars])
example : marks c!"f = (if let a = 1 in a then letter else b)" =
  [c!"(", c!"if", c!"let", c!"in", c!"then", c!"else", c!")"] := rfl
example := C70_count (s := c!"f = if a then b else c") (sts := _) (r := []) rfl (bare_of_check rfl)
  (by simp [statementTyVars, functionTyVars, exprTyVars, exprsTyVars])
/-- `v` occurs nowhere in the text, checked. -/
def absent (v : Str) : Str → Bool
  | [] => !v.isPrefixOf []
  | c :: s => !v.isPrefixOf (c :: s) && absent v s

theorem absent_of {v s : Str} (h : absent v s = true) : ∀ a b, s ≠ a ++ v ++ b := by
  induction s with
  | nil =>
    intro a b e
    simp only [List.nil_eq, List.append_eq_nil_iff] at e
    obtain ⟨⟨rfl, rfl⟩, rfl⟩ := e
    cases h
  | cons c s ih =>
    intro a b e
    unfold absent at h
    rw [Bool.and_eq_true, Bool.not_eq_true'] at h
    cases a with
    | nil =>
      have hp : v.isPrefixOf (c :: s) = true := List.isPrefixOf_iff_prefix.2 ⟨b, e.symm⟩
      rw [hp] at h; cases h.1
    | cons x a => exact ih h.2 a b (List.cons.inj e).2

/-- A `let` without `in`, an `if` without `else`, a `case` without `of`, an `in` too many, and a bracket across. -/
example : file c!"f = let a = 1 b\n" = .err := C70_text rfl (by decide) (absent_of rfl)
example : file c!"f = if a then b\n" = .err := C70_text rfl (by decide) (absent_of rfl)
example : file c!"f = case a b -> c\n" = .err := C70_text rfl (by decide) (absent_of rfl)
example : file c!"f = a in b\n" = .err := C70_text rfl (by decide) (absent_of rfl)
example : file c!"f = (if a then b) else c\n" = .err := C70_text rfl (by decide) (absent_of rfl)
example : file c!"f = if let a = b then a in c else d\n" = .err := C70_text rfl (by decide) (absent_of rfl)
/-- The same with a signature: then the parser may read the words as type variables, but not these. -/
example : file c!"f : a\nf = let a = 1 b\n" = .err :=
  (C70_reject (s := c!"f : a\nf = let a = 1 b\n") rfl).resolve_right fun ⟨_, h, _⟩ => nomatch h
/-- A signature can have any of the words as type variable, which is why the theorems exclude them. -/
example : scansWords c!"f : let\nf = 1" = false ∧ ∃ x, file c!"f : let\nf = 1" = .ok [x] [] ∧ statementTyVars x = [c!"let"] :=
  ⟨rfl, .Function ⟨some ⟨c!"f", .TypeVariable c!"let"⟩, ⟨c!"f", [], .Integer c!"1"⟩⟩, rfl, by
    simp [statementTyVars, functionTyVars, tyVars, exprTyVars, exprsTyVars]⟩
/-- With a type variable that is none of the words. -/
example : scansWords c!"f : a -> b\nf = \\x -> case x of\n  1 -> \"in\"\n" = true :=
  C70_scan (r := []) (sts := [.Function ⟨some ⟨c!"f", .TypeApplication (.TypeVariable c!"a") (.TypeVariable c!"b")⟩, ⟨c!"f", [],
    .Lambda [.Variable [c!"x"]] (.Case (.Variable [c!"x"]) [(.Integer c!"1", .String c!"in")])⟩⟩]) rfl (by
      simp [statementTyVars, functionTyVars, tyVars, exprTyVars, exprsTyVars, branchTyVars]; decide)

end ElmParser
