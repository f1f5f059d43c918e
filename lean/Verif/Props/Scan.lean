import Verif.Proofs.ScanFile
import Verif.Proofs.ScanPlain
import Verif.Proofs.ScanCode
import Verif.Proofs.StmtSound
import Verif.Props.Totality

/-! C68 (brackets match) and C69 (spaces around operators). -/
namespace ElmParser
open Spec

/-! ### C68 -/

/-- C68: the scanner accepts every text the parser accepts, or gives up. -/
theorem C68_scan {s r : Str} {sts : List Statement} (h : file s = .ok sts r) : scans s = true :=
  fileSrc_scan (file_sound h).2 fun _ _ => nofun

/-- C68: a text that the scanner rejects is no file. -/
theorem C68_reject {s : Str} (h : scans s = false) : file s = .err := by
  rcases C01_file_total s with h' | ⟨sts, h'⟩
  · exact h'
  · rw [C68_scan h'] at h; cases h

/-- C68: in a file without strings, character literals and comments the brackets are properly nested and closed. -/
theorem C68_nested {s r : Str} {sts : List Statement} (h : file s = .ok sts r) (hb : Bare s) : Nested s := by
  refine closes_nested (plain_run (B := True) (y := none) (p := .gap) (k := []) nofun ?_ ?_ (noDash_of hb.line hb.block)
    hb.string hb.char (C68_scan h)).1
  · exact fun h => absurd trivial h
  · exact fun h => absurd trivial h

theorem Spec.Nested.count {s : Str} (h : Nested s) {o c : Char} (hp : Partners o c) : s.count o = s.count c := by
  have hoc : Bracket o ∧ Bracket c := by
    unfold Partners at hp
    simp only [List.mem_cons, List.not_mem_nil, or_false, Prod.mk.injEq] at hp
    rcases hp with ⟨rfl, rfl⟩ | ⟨rfl, rfl⟩ | ⟨rfl, rfl⟩ <;> decide
  induction h with
  | nil => rfl
  | @char x s hx _ ih =>
    rw [List.count_cons_of_ne (by rintro rfl; exact hx hoc.1), List.count_cons_of_ne (by rintro rfl; exact hx hoc.2)]
    exact ih
  | @pair x y a s hxy _ _ ih1 ih2 =>
    simp only [List.count_cons, List.count_append, ih1, ih2]
    unfold Partners at hp hxy
    simp only [List.mem_cons, List.not_mem_nil, or_false, Prod.mk.injEq] at hp hxy
    rcases hp with ⟨rfl, rfl⟩ | ⟨rfl, rfl⟩ | ⟨rfl, rfl⟩ <;> rcases hxy with ⟨rfl, rfl⟩ | ⟨rfl, rfl⟩ | ⟨rfl, rfl⟩ <;>
      simp [Nat.add_assoc, Nat.add_comm, Nat.add_left_comm]

/-- C68: such a file has as many closing as opening brackets of each kind. -/
theorem C68_count {s r : Str} {sts : List Statement} (h : file s = .ok sts r) (hb : Bare s) :
    s.count '(' = s.count ')' ∧ s.count '[' = s.count ']' ∧ s.count '{' = s.count '}' :=
  have hn := C68_nested h hb
  ⟨hn.count (by decide), hn.count (by decide), hn.count (by decide)⟩

/-- C68: in every file that the scanner reads to its end, with strings, character literals and comments too, the brackets
outside them are properly nested and closed. -/
theorem C68_code {s r : Str} {sts : List Statement} (h : file s = .ok sts r) (hs : Clear s) : Nested (code s) := by
  have h1 : ((scanFrom false (.at .gap []) s).map (Scan.final false)).getD false = true := C68_scan h
  unfold Clear at hs
  cases h2 : scanFrom false (.at .gap []) s with
  | none => rw [h2] at h1; cases h1
  | some σ =>
    cases σ with
    | unclear => exact absurd h2 hs
    | «at» p k =>
      rw [h2] at h1
      exact closes_nested (code_closes h2 h1)

/-- C68: and as many of them are closing as opening, of each kind. -/
theorem C68_code_count {s r : Str} {sts : List Statement} (h : file s = .ok sts r) (hs : Clear s) :
    (code s).count '(' = (code s).count ')' ∧ (code s).count '[' = (code s).count ']' ∧ (code s).count '{' = (code s).count '}' :=
  have hn := C68_code h hs
  ⟨hn.count (by decide), hn.count (by decide), hn.count (by decide)⟩

/-- A text without two dashes in a row and without `{-`, checked. -/
def bareCheck : Str → Bool
  | [] => true
  | c :: s => c != '"' && c != '\'' && !(c!"--").isPrefixOf (c :: s) && !(c!"{-").isPrefixOf (c :: s) && bareCheck s

theorem bare_of_check {s : Str} (h : bareCheck s = true) : Bare s := by
  have key : ∀ (s : Str), bareCheck s = true → '"' ∉ s ∧ '\'' ∉ s ∧ (∀ a b, s ≠ a ++ c!"--" ++ b) ∧ ∀ a b, s ≠ a ++ c!"{-" ++ b := by
    intro s
    induction s with
    | nil => exact fun _ => ⟨by simp, by simp, fun a b e => by simp at e, fun a b e => by simp at e⟩
    | cons c s ih =>
      intro h
      unfold bareCheck at h
      simp only [Bool.and_eq_true, bne_iff_ne, ne_eq, Bool.not_eq_true'] at h
      obtain ⟨⟨⟨⟨h1, h2⟩, h3⟩, h4⟩, h5⟩ := h
      obtain ⟨i1, i2, i3, i4⟩ := ih h5
      refine ⟨?_, ?_, fun a b e => ?_, fun a b e => ?_⟩
      · intro hm
        rcases List.mem_cons.1 hm with e | e
        · exact h1 e.symm
        · exact i1 e
      · intro hm
        rcases List.mem_cons.1 hm with e | e
        · exact h2 e.symm
        · exact i2 e
      · cases a with
        | nil => rw [e] at h3; simp at h3
        | cons x a => exact i3 a b (List.cons.inj e).2
      · cases a with
        | nil => rw [e] at h4; simp at h4
        | cons x a => exact i4 a b (List.cons.inj e).2
  obtain ⟨h1, h2, h3, h4⟩ := key s h
  exact ⟨h1, h2, h3, h4⟩

example : Nested c!"f = (g [ a, { b=1 } ], (+))" := C68_nested (sts := _) (r := []) rfl (bare_of_check rfl)
example := C68_count (s := c!"f = (g [ a, { b=1 } ], (+))") (r := []) rfl (bare_of_check rfl)
/-- The brackets in a file with literals and comments. -/
example : Nested c!"f = g \" ' [ a ] --\n\n--" := C68_code (s := c!"f = g \"(\" '[' [ a ] -- (\n\n{- ) -}\n-- }") (r := []) rfl nofun
example := C68_code_count (s := c!"f = g \"(\" '[' [ a ] -- (\n\n{- ) -}\n-- }") (r := []) rfl nofun
/-- A bracket that is not closed, one too many, and brackets that cross; brackets in literals and comments do not
count. -/
example : file c!"f = (g (a)\n" = .err := C68_reject rfl
example : file c!"f = g a)\n" = .err := C68_reject rfl
example : file c!"f = [ (a ], b)\n" = .err := C68_reject rfl
example : scans c!"f = g \"(\" '[' {- ) -}" = true := rfl
example : ∃ x, file c!"f = g \"(\" '['\n\n{- ) -}\n-- }" = .ok x [] ∧ scans c!"f = g \"(\" '['\n\n{- ) -}\n-- }" = true :=
  ⟨_, rfl, C68_scan (r := []) rfl⟩
/-- Literals and block comments must be finished. -/
example : file c!"f = \"a" = .err := C68_reject rfl
example : file c!"f = \"\"\"a\"\"" = .err := C68_reject rfl
example : file c!"f = 'ab'" = .err := C68_reject rfl
example : file c!"f = 1\n{- a" = .err := C68_reject rfl
/-- Characters that belong to no token. -/
example : file c!"f = a;" = .err := C68_reject rfl
example : file c!"f = a `g` b" = .err := C68_reject rfl

/-! ### C69 -/

/-- C69: which characters can be neighbours in a file without strings, character literals and comments. -/
theorem C69_neighbours {s r : Str} {sts : List Statement} (h : file s = .ok sts r) (hb : Bare s) {a b : Str} {y x : Char}
    (e : s = a ++ y :: x :: b) : Neighbours ('{' ∈ s) y x :=
  pairs_at (plain_run (B := '{' ∈ s) (y := none) (p := .gap) (k := []) nofun (by simp) (fun h => h)
    (noDash_of hb.line hb.block) hb.string hb.char (C68_scan h)).2.1 e

/-- C69: the same in every file, with strings, character literals and comments too: which character `x` can follow `y`,
where `y` is not inside one of them and `k` are the open brackets.  The only further exception is a comment. -/
theorem C69_code {a b r : Str} {y x : Char} {sts : List Statement} {p : Pos} {k : List Char} (h : file (a ++ y :: x :: b) = .ok sts r)
    (ha : After (a ++ [y]) p k) (hp : p.code = true) :
    Neighbours (inBraces k = true) y x ∨ (x = '-' ∧ ∃ b', b = '-' :: b') := by
  have h1 := C68_scan h
  rw [show a ++ y :: x :: b = (a ++ [y]) ++ x :: b by simp] at h1
  obtain ⟨σ, h2, h3⟩ := after_step h1 ha
  exact neighbours_step (after_last ha hp) h2 h3

/-- C69: so, unless it begins a comment, an operator symbol directly after a word or a closing bracket makes a file fail,
wherever this stands outside strings, character literals and comments, but for the dot and, directly inside braces,
`=`, `:` and `|`. -/
theorem C69_code_before {a b : Str} {y x : Char} {p : Pos} {k : List Char} (ha : After (a ++ [y]) p k) (hp : p.code = true)
    (hy : IdentChar y ∨ y ∈ [')', ']', '}']) (hx : OpChar x) (hd : x ≠ '.') (hk : inBraces k = true → x ∉ ['=', ':', '|'])
    (hc : x = '-' → b.head? ≠ some '-') : file (a ++ y :: x :: b) = .err := by
  rcases C01_file_total (a ++ y :: x :: b) with h | ⟨sts, h⟩
  · exact h
  · rcases C69_code h ha hp with h | ⟨h1, b', rfl⟩
    · rcases h.after hy hx with h | ⟨h1, h2⟩
      · exact absurd h hd
      · exact absurd h2 (hk h1)
    · exact absurd rfl (hc h1)

/-- C69: and so does an operator symbol directly before a word or an opening bracket, but for the dot, the backslash, the
sign of a number and, directly inside braces, `=`, `:` and `|`. -/
theorem C69_code_after {a b : Str} {y x : Char} {p : Pos} {k : List Char} (ha : After (a ++ [y]) p k) (hp : p.code = true)
    (hy : OpChar y) (hx : IdentChar x ∨ x ∈ ['(', '[', '{']) (h1 : y ≠ '.') (h2 : y ≠ '\\')
    (h3 : Digit x → y ≠ '+' ∧ y ≠ '-') (hk : inBraces k = true → y ∉ ['=', ':', '|']) : file (a ++ y :: x :: b) = .err := by
  rcases C01_file_total (a ++ y :: x :: b) with h | ⟨sts, h⟩
  · exact h
  · rcases C69_code h ha hp with h | ⟨rfl, -⟩
    · rcases h.before hy hx with h | h | ⟨h, h'⟩ | ⟨h, h'⟩
      · exact absurd h h1
      · exact absurd h h2
      · simp only [List.mem_cons, List.not_mem_nil, or_false] at h
        rcases h with h | h
        · exact absurd h (h3 h').1
        · exact absurd h (h3 h').2
      · exact absurd h' (hk h)
    · exact absurd hx (by decide)

/-- C69: without braces, a word or a closing bracket directly followed by an operator symbol other than the dot makes
a file fail. -/
theorem C69_before {s a b : Str} {y x : Char} (hb : Bare s) (hn : '{' ∉ s) (e : s = a ++ y :: x :: b)
    (hy : IdentChar y ∨ y ∈ [')', ']']) (hx : OpChar x) (hd : x ≠ '.') : file s = .err := by
  rcases C01_file_total s with h | ⟨sts, h⟩
  · exact h
  · rcases (C69_neighbours h hb e).after (hy.imp id fun h => by
      simp only [List.mem_cons, List.not_mem_nil, or_false] at h ⊢; rcases h with h | h <;> simp [h]) hx with h | ⟨h, -⟩
    · exact absurd h hd
    · exact absurd h hn

/-- C69: without braces, an operator symbol directly followed by a word or an opening bracket makes a file fail, except
the dot, the backslash and the sign of a number. -/
theorem C69_after {s a b : Str} {y x : Char} (hb : Bare s) (hn : '{' ∉ s) (e : s = a ++ y :: x :: b)
    (hy : OpChar y) (hx : IdentChar x ∨ x ∈ ['(', '[']) (h1 : y ≠ '.') (h2 : y ≠ '\\')
    (h3 : Digit x → y ≠ '+' ∧ y ≠ '-') : file s = .err := by
  rcases C01_file_total s with h | ⟨sts, h⟩
  · exact h
  · rcases (C69_neighbours h hb e).before hy (hx.imp id fun h => by
      simp only [List.mem_cons, List.not_mem_nil, or_false] at h ⊢; rcases h with h | h <;> simp [h]) with h | h | ⟨h, h'⟩ | ⟨h, -⟩
    · exact absurd h h1
    · exact absurd h h2
    · simp only [List.mem_cons, List.not_mem_nil, or_false] at h
      rcases h with h | h
      · exact absurd h (h3 h').1
      · exact absurd h (h3 h').2
    · exact absurd h hn

/-- `n - 1` is a subtraction, `n -1` an application, and `n-1` and `n -a` are rejected. -/
example : ∃ x y, file c!"f = n - 1" = .ok [x] [] ∧ file c!"f = n -1" = .ok [y] [] ∧ x ≠ y :=
  ⟨.Function ⟨none, ⟨c!"f", [], .BinOp (.Variable [c!"-"]) (.Variable [c!"n"]) (.Integer c!"1")⟩⟩,
    .Function ⟨none, ⟨c!"f", [], .Application (.Variable [c!"n"]) (.Integer c!"-1")⟩⟩, rfl, rfl, nofun⟩
example : file c!"f = n-1" = .err :=
  C69_before (a := c!"f = ") (y := 'n') (x := '-') (b := c!"1") (bare_of_check rfl) (by decide) rfl (by decide) (by decide) (by decide)
example : file c!"f = n -a" = .err :=
  C69_after (a := c!"f = n ") (y := '-') (x := 'a') (b := []) (bare_of_check rfl) (by decide) rfl (by decide) (by decide)
    (by decide) (by decide) (by decide)
example : file c!"f = (a)+ b" = .err :=
  C69_before (a := c!"f = (a") (y := ')') (x := '+') (b := c!" b") (bare_of_check rfl) (by decide) rfl (by decide) (by decide) (by decide)
example : file c!"f = a ++(b)" = .err :=
  C69_after (a := c!"f = a +") (y := '+') (x := '(') (b := c!"b)") (bare_of_check rfl) (by decide) rfl (by decide) (by decide)
    (by decide) (by decide) (by decide)
example : file c!"f =1" = .err :=
  C69_after (a := c!"f ") (y := '=') (x := '1') (b := []) (bare_of_check rfl) (by decide) rfl (by decide) (by decide)
    (by decide) (by decide) (by decide)
example : file c!"f : a->b\nf = c" = .err :=
  C69_before (a := c!"f : ") (y := 'a') (x := '-') (b := c!">b\nf = c") (bare_of_check rfl) (by decide) rfl (by decide) (by decide) (by decide)
/-- The neighbours in a file with everything that is allowed. -/
example := C69_neighbours (s := c!"f = \\x -> {a=-1, b=(.c), d=\\y -> A.e y.z} -1 (+)") (sts := _) (r := []) rfl (bare_of_check rfl)
  (a := c!"f = \\x -> {a") (y := '=') (x := '-') rfl

/-- In a file with a string, a comment and a record before and behind. -/
example : file c!"-- \"\nf = { a=\"-1\", b=n-1 }\n{- c -}" = .err :=
  C69_code_before (a := c!"-- \"\nf = { a=\"-1\", b=") (y := 'n') (x := '-') (b := c!"1 }\n{- c -}") rfl rfl (by decide) (by decide)
    (by decide) (by decide) (by decide)
example : file c!"-- \"\nf = \"-1\" ++(b)\n{- c -}" = .err :=
  C69_code_after (a := c!"-- \"\nf = \"-1\" +") (y := '+') (x := '(') (b := c!"b)\n{- c -}") rfl rfl (by decide) (by decide)
    (by decide) (by decide) (by decide) (by decide)
example := C69_code (sts := _) (r := []) (a := c!"f = \"-1\" :: { a") (y := '=') (x := '1') (b := c!"} --") rfl rfl rfl

end ElmParser
