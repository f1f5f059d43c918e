import Verif.Proofs.Gap

/-! C05-C07, C09-C14 and C38: names, operators, literals, comments and layout gaps. -/
namespace ElmParser
open Spec

/-! ### Names and operators -/

/-- **C05.** `lo_name` accepts exactly an underscore, or a maximal lower-case word that is not a
keyword, and returns it. -/
theorem C05_loName {s r : Str} {n : Name} :
    loName s = .ok n r ↔ s = n ++ r ∧
      (n = ['_'] ∨ (Word Lower IdentChar n ∧ n ∉ keywords ∧ Next (fun c => ¬ IdentChar c) r)) :=
  loName_iff

example : loName c!"inner_1 x" = .ok c!"inner_1" c!" x" := rfl
example : loName c!"in x" = .err := rfl
example : LoName c!"inner_1" ∧ c!"in" ∈ keywords :=
  ⟨.inr ⟨⟨'i', c!"nner_1", rfl, by decide, by decide⟩, by decide⟩, by decide⟩

/-- **C06.** `up_name` accepts exactly a maximal upper-case word and returns it. -/
theorem C06_upName {s r : Str} {n : Name} :
    upName s = .ok n r ↔ s = n ++ r ∧ UpName n ∧ Next (fun c => ¬ IdentChar c) r := upName_iff

/-- **C06.** `module_name` accepts exactly a maximal dotted sequence of upper-case words; it
leaves a dot that is not followed by an upper-case letter. -/
theorem C06_moduleName {s r : Str} {ns : List Name} :
    moduleName s = .ok ns r ↔ s = dotted ns ++ r ∧ ns ≠ [] ∧ (∀ n ∈ ns, UpName n) ∧
      Next (fun c => ¬ IdentChar c) r ∧ (∀ c t, r = '.' :: c :: t → ¬ Upper c) := moduleName_iff

example : moduleName c!"Html.Attr.map x" = .ok [c!"Html", c!"Attr"] c!".map x" := rfl
example : upName c!"Html.Attr" = .ok c!"Html" c!".Attr" := rfl

/-- **C06.** `Module.name` is an access of the qualifier, for every qualifier and name. -/
theorem C06_qualified {ns : List Name} {n : Name} {r : Str} (hne : ns ≠ [])
    (hns : ∀ m ∈ ns, UpName m) (hn : Word Lower IdentChar n) (hk : n ∉ keywords)
    (hr : Next (fun c => ¬ IdentChar c ∧ c ≠ '.') r) :
    access (dotted ns ++ '.' :: (n ++ r)) = .ok (.Access (.Variable ns) [n]) r := by
  obtain ⟨c, cs, rfl, hc, hcs⟩ := hn
  have hlow : ¬ Upper c := by unfold Lower at hc; unfold Upper; omega
  have h1 : moduleName (dotted ns ++ '.' :: (c :: cs ++ r)) = .ok ns ('.' :: (c :: cs ++ r)) :=
    moduleName_iff.2 ⟨rfl, hne, hns, next_cons.2 not_ident_dot, by
      intro d t h
      simp only [List.cons_append, List.cons.injEq, true_and] at h
      rw [← h.1]; exact hlow⟩
  have hl : ∀ s, Next Upper s → loName s = .err := by
    intro s hs
    rcases err_or_ok cons_loName s with e | ⟨v, t, e, -⟩
    · exact e
    · exfalso
      obtain ⟨rfl, h⟩ := loName_iff.1 e
      rcases h with rfl | ⟨⟨d, ds, rfl, hd, -⟩, -⟩
      · have := hs '_' t rfl
        revert this; unfold Upper; decide
      · have := hs d _ rfl
        revert this hd; unfold Upper Lower; omega
  have hup : Next Upper (dotted ns ++ '.' :: (c :: cs ++ r)) := by
    cases ns with
    | nil => exact absurd rfl hne
    | cons m ms =>
      obtain ⟨d, ds, rfl, hd, -⟩ := hns m (by simp)
      rw [dotted_eq]
      exact next_cons.2 hd
  have h2 : variableP (dotted ns ++ '.' :: (c :: cs ++ r)) =
      .ok (.Variable ns) ('.' :: (c :: cs ++ r)) := by
    unfold variableP lowerCase upperWithDots
    rw [alt_apply, pmap_apply, hl _ hup, alt_apply, pmap_apply]
    have : sepNonemptyList (char '.') upName = moduleName := rfl
    rw [this, h1]
    rfl
  have h3 : loName (c :: cs ++ r) = .ok (c :: cs) r :=
    loName_iff.2 ⟨rfl, .inr ⟨⟨c, cs, rfl, hc, hcs⟩, hk, Next.imp hr fun _ h => h.1⟩⟩
  have h4 : dotName ('.' :: (c :: cs ++ r)) = .ok (c :: cs) r := by
    unfold dotName
    rw [bind_apply, char_cons, andThen_ok, h3]
  have h5 : dotName r = .err := by
    unfold dotName
    cases r with
    | nil => rfl
    | cons x r =>
      rw [bind_apply, char_cons_ne _ (next_cons.1 hr).2]
      rfl
  have h6 : many0 dotName r = .ok [] r := many0_ok_of_run (.nil _) h5
  unfold access
  rw [bind_apply, h2, andThen_ok, bind_apply, many1_apply, h4, andThen_ok, h6]
  rfl

example : access c!"Html.Attr.map x" = .ok (.Access (.Variable [c!"Html", c!"Attr"]) [c!"map"]) c!" x" :=
  C06_qualified (ns := [c!"Html", c!"Attr"]) (n := c!"map") (r := c!" x") (by simp)
    (by
      intro m hm
      simp at hm
      rcases hm with rfl | rfl
      · exact ⟨'H', c!"tml", rfl, by decide, by decide⟩
      · exact ⟨'A', c!"ttr", rfl, by decide, by decide⟩)
    ⟨'m', c!"ap", rfl, by decide, by decide⟩ (by decide) (next_cons.2 (by decide))

/-- **C07.** `operator` accepts exactly a maximal run of operator characters that is not a
reserved operator. -/
theorem C07_operator {s r : Str} {n : Name} :
    operator s = .ok n r ↔ s = n ++ r ∧ Operator n ∧ Next (fun c => ¬ OpChar c) r := operator_iff

example : operator c!"|> f" = .ok c!"|>" c!" f" := rfl
example : operator c!"-> f" = .err ∧ operator c!"->> f" = .ok c!"->>" c!" f" := ⟨rfl, rfl⟩

/-! ### Layout gaps -/

/-- **C09.** The layout parser succeeds exactly on a maximal gap `ls`, `last`.  Without a line
end it always succeeds and keeps the indentation (except that a comment which ends the text
gives 0).  With one it succeeds iff the column of the next token stands in the requested
relation to the indentation, and returns that column (as a `u32`). -/
theorem C09_gap {ind i : Nat} {ir : IR} {s r : Str} :
    gap ind ir s = .ok i r ↔ ∃ ls last, Gap s ls last r ∧
      ((ls = [] ∧ i = if last.comment = none then ind else 0) ∨
        (ls ≠ [] ∧ i = column last % 4294967296 ∧ Rel ir (column last % 4294967296) ind)) :=
  gap_iff

/-- **C09**, in the other direction: given the gap at the start of a text, the outcome. -/
theorem C09_gap_of {s r : Str} {ls : List Line} {last : Line} (h : Gap s ls last r)
    (ind : Nat) (ir : IR) {i : Nat} {r' : Str} :
    gap ind ir s = .ok i r' ↔ r' = r ∧
      ((ls = [] ∧ i = if last.comment = none then ind else 0) ∨
        (ls ≠ [] ∧ i = column last % 4294967296 ∧ Rel ir (column last % 4294967296) ind)) :=
  gap_of_gap h ind ir

/-- **C09.** Every text starts with a gap or with none, and without one the parser fails. -/
theorem C09_cases (s : Str) :
    (NoGap s ∧ ∀ ind ir, gap ind ir s = .err) ∨ ∃ ls last r, Gap s ls last r := by
  rcases gap_exists s with h | h
  · exact .inl ⟨h, gap_none h⟩
  · exact .inr h

/-- A gap with a comment, a blank line and two spaces before the next token. -/
theorem gap_example : Gap c!" -- c\n\n  x" [⟨1, some c!" c"⟩, ⟨0, none⟩] ⟨2, none⟩ c!"x" where
  split := rfl
  nonempty := by decide
  lines := by intro l hl; simp at hl; rcases hl with rfl | rfl <;> simp [Line.ok] <;> decide
  lastOk := by simp [Line.ok]
  stop := .inl ⟨rfl, next_cons.2 (by decide), by simp⟩

example : gap 1 .GT c!" -- c\n\n  x" = .ok 2 c!"x" :=
  (C09_gap_of gap_example 1 .GT).2 ⟨rfl, .inr ⟨by simp, rfl, by decide⟩⟩
example : gap 2 .GT c!" -- c\n\n  x" ≠ .ok 2 c!"x" := by
  intro h
  rcases ((C09_gap_of gap_example 2 .GT).1 h).2 with ⟨h, -⟩ | ⟨-, -, h⟩
  · simp at h
  · revert h; decide

/-- A line end and `n` spaces before a token is a gap. -/
theorem gap_newline {r : Str} (hr : NoGap r) (n : Nat) :
    Gap ('\n' :: (sp n ++ r)) [⟨0, none⟩] ⟨n, none⟩ r where
  split := by simp [gapText, Line.text, sp, commentText]
  nonempty := by simp [gapText]
  lines := by simp [Line.ok]
  lastOk := by simp [Line.ok]
  stop := .inl ⟨rfl, hr⟩

/-- **C10.** A token after a line end and `n` spaces is measured at column `n mod 2^32`. -/
theorem C10_wrap {r : Str} (hr : NoGap r) (n ind : Nat) (ir : IR) {i : Nat} {r' : Str} :
    gap ind ir ('\n' :: (sp n ++ r)) = .ok i r' ↔
      r' = r ∧ i = n % 4294967296 ∧ Rel ir (n % 4294967296) ind := by
  rw [gap_of_gap (gap_newline hr n)]
  simp [column]

/-- **C10.** Below 2^32 spaces the measured indentation is the column itself. -/
theorem C10_small {r : Str} (hr : NoGap r) {n : Nat} (hn : n < 4294967296) (ind : Nat) (ir : IR)
    {i : Nat} {r' : Str} :
    gap ind ir ('\n' :: (sp n ++ r)) = .ok i r' ↔ r' = r ∧ i = n ∧ Rel ir n ind := by
  rw [C10_wrap hr, Nat.mod_eq_of_lt hn]

/-- **C10.** 2^32 spaces are no indentation at all, although the column is larger. -/
theorem C10_order_lost {r : Str} (hr : NoGap r) : gap 0 .GT ('\n' :: (sp 4294967296 ++ r)) = .err := by
  rcases err_or_ok (fun k => cons_gap k 0 .GT) ('\n' :: (sp 4294967296 ++ r)) with e | ⟨v, t, e, -⟩
  · exact e
  · obtain ⟨-, -, h⟩ := (C10_wrap hr _ _ _).1 e
    simp [Rel] at h

/-- **C10.** The signature/definition line break is measured in the same way. -/
theorem C10_sameIndent {r : Str} (hr : Next (· ≠ ' ') r) (n ind : Nat) {i : Nat} {r' : Str} :
    newLineAndSameIndent ind ('\n' :: (sp n ++ r)) = .ok i r' ↔
      r' = r ∧ i = ind ∧ n % 4294967296 = ind := by
  unfold newLineAndSameIndent
  rw [mapRes_eq_ok]
  have h : preceded (char '\n') (pmap spaces0 fun s => asU32 s.length) ('\n' :: (sp n ++ r)) =
      .ok (n % 4294967296) r := by
    rw [preceded_apply, char_cons, andThen_ok, pmap_apply, spaces0_sp hr]
    simp [asU32, sp]
  rw [h]
  simp only [Res.ok.injEq, Option.ite_none_right_eq_some, beq_iff_eq, Option.some.injEq]
  constructor
  · rintro ⟨v, ⟨rfl, rfl⟩, h1, h2⟩
    exact ⟨rfl, by omega, by omega⟩
  · rintro ⟨rfl, rfl, h⟩
    exact ⟨_, ⟨rfl, rfl⟩, h, h⟩

example : NoGap c!"x" ∧ gap 0 .GT c!"\n   x" = .ok 3 c!"x" := ⟨⟨next_cons.2 (by decide), by simp⟩, rfl⟩
example : newLineAndSameIndent 3 c!"\n   x" = .ok 3 c!"x" ∧ newLineAndSameIndent 2 c!"\n   x" = .err :=
  ⟨rfl, rfl⟩

/-- **C38.** Two gaps with line ends before the same text whose last lines have the same number
of spaces are interchangeable, whatever blank lines and comments they contain. -/
theorem C38_same_column {s s' r : Str} {ls ls' : List Line} {last last' : Line}
    (h : Gap s ls last r) (h' : Gap s' ls' last' r) (hls : ls ≠ []) (hls' : ls' ≠ [])
    (hc : column last = column last') (ind : Nat) (ir : IR) : gap ind ir s = gap ind ir s' := by
  have key : ∀ i t, gap ind ir s = .ok i t ↔ gap ind ir s' = .ok i t := by
    intro i t
    rw [gap_of_gap h, gap_of_gap h', hc]
    simp [hls, hls']
  rcases err_or_ok (fun k => cons_gap k ind ir) s with e | ⟨v, t, e, -⟩
  · rcases err_or_ok (fun k => cons_gap k ind ir) s' with e' | ⟨v', t', e', -⟩
    · rw [e, e']
    · rw [(key _ _).2 e'] at e; cases e
  · rw [e, (key _ _).1 e]

/-- **C38.** Two gaps without line ends before the same (non-empty) text are interchangeable. -/
theorem C38_same_line {s s' r : Str} {last last' : Line}
    (h : Gap s [] last r) (h' : Gap s' [] last' r) (hr : r ≠ []) (ind : Nat) (ir : IR) :
    gap ind ir s = gap ind ir s' := by
  have e : last.comment = none := h.stop.elim (fun h => h.1) fun h => absurd h.2 hr
  have e' : last'.comment = none := h'.stop.elim (fun h => h.1) fun h => absurd h.2 hr
  rw [(gap_of_gap h ind ir (i := ind) (r' := r)).2 ⟨rfl, .inl ⟨rfl, by simp [e]⟩⟩,
    (gap_of_gap h' ind ir (i := ind) (r' := r)).2 ⟨rfl, .inl ⟨rfl, by simp [e']⟩⟩]

example (ind : Nat) (ir : IR) : gap ind ir c!" -- c\n\n  x" = gap ind ir c!"\n  x" :=
  C38_same_column gap_example (gap_newline (r := c!"x") ⟨next_cons.2 (by decide), by simp⟩ 2)
    (by simp) (by simp) rfl ind ir

/-! ### Literals -/

/-- **C11.** `integer` accepts exactly an optional sign and a maximal run of digits, and keeps
the text. -/
theorem C11_integer {s r : Str} {e : Expr} :
    integer s = .ok e r ↔ ∃ w, e = .Integer w ∧ s = w ++ r ∧ IntText w ∧
      Next (fun c => ¬ Digit c) r := integer_iff

/-- **C11.** `float` likewise. -/
theorem C11_float {s r : Str} {e : Expr} :
    float s = .ok e r ↔ ∃ w, e = .Float w ∧ s = w ++ r ∧ FloatText w ∧
      Next (fun c => ¬ Digit c) r := float_iff

example : integer c!"-007 x" = .ok (.Integer c!"-007") c!" x" := rfl
example : float c!"+12.50x" = .ok (.Float c!"+12.50") c!"x" := rfl
example : integer c!"- 7" = .err := rfl

/-- **C12.** `character` accepts exactly `'c'` for any character and `'\xHH'` (and, an accident
of Rust's number parser, `'\x+H'`), and yields the character denoted. -/
theorem C12_character {s r : Str} {e : Expr} :
    character s = .ok e r ↔ ∃ w c, e = .Character c ∧ s = '\'' :: w ++ '\'' :: r ∧ CharText w c :=
  character_iff

/-- **C12.** In particular every character can be written as itself. -/
theorem C12_every_char (c : Char) (r : Str) : character ('\'' :: c :: '\'' :: r) = .ok (.Character c) r :=
  character_iff.2 ⟨[c], c, rfl, rfl, .inl rfl⟩

example : character c!"'\\x41'" = .ok (.Character 'A') [] := rfl
example : character c!"'''" = .ok (.Character '\'') [] := rfl
example : character c!"'\\n'" = .err := rfl

/-- **C13.** A string literal is, first, a triple-quoted text without quotes; otherwise a
one-line text in single quotes.  The tree carries exactly the text between the delimiters. -/
theorem C13_string {s r : Str} {e : Expr} :
    string s = .ok e r ↔ ∃ m, e = .String m ∧
      ((s = c!"\"\"\"" ++ m ++ c!"\"\"\"" ++ r ∧ '"' ∉ m) ∨
       ((¬ ∃ m' r', s = c!"\"\"\"" ++ m' ++ c!"\"\"\"" ++ r' ∧ '"' ∉ m') ∧
        s = '"' :: m ++ '"' :: r ∧ StringText m)) := by
  unfold string
  rw [pmap_eq_ok]
  have hm : multiString s = .err ↔ ¬ ∃ m' r', s = c!"\"\"\"" ++ m' ++ c!"\"\"\"" ++ r' ∧ '"' ∉ m' := by
    constructor
    · rintro h ⟨m', r', h'⟩
      rw [multiString_iff.2 h'] at h; cases h
    · intro h
      rcases err_or_ok cons_multiString s with e | ⟨v, t, e, -⟩
      · exact e
      · exact absurd ⟨v, t, multiString_iff.1 e⟩ h
  simp only [alt_eq_ok, multiString_iff, singleString_iff, hm]
  constructor
  · rintro ⟨m, h, rfl⟩; exact ⟨m, rfl, h⟩
  · rintro ⟨m, rfl, h⟩; exact ⟨m, h, rfl⟩

example : string c!"\"a\\\"b\" x" = .ok (.String c!"a\\\"b") c!" x" := rfl
example : string c!"\"\"\"a\nb\"\"\" x" = .ok (.String c!"a\nb") c!" x" := rfl
example : string c!"\"\"\"a\"b\"\"\" x" = .ok (.String []) c!"\"a\"b\"\"\" x" := rfl

/-! ### Comments -/

/-- **C14.** A line comment is everything up to the end of the line. -/
theorem C14_line {s r : Str} {x : Statement} :
    lineCommentStatement s = .ok x r ↔ ∃ t, x = .Comment t ∧
      s = '-' :: '-' :: t ++ r ∧ '\n' ∉ t ∧ Next (· = '\n') r := lineCommentStatement_iff

/-- **C14.** A block comment is everything up to the first `-}`: it does not nest. -/
theorem C14_block {s r : Str} {x : Statement} :
    multiLineComment s = .ok x r ↔ ∃ t, x = .Comment t ∧ s = c!"{-" ++ t ++ c!"-}" ++ r ∧
      ∀ a b, t ++ c!"-}" ++ r = a ++ c!"-}" ++ b → t.length ≤ a.length := multiLineComment_iff

/-- **C14.** An unterminated block comment is rejected. -/
theorem C14_unterminated {s : Str} (h : ¬ ∃ a b, s = a ++ c!"-}" ++ b) : comment (c!"{-" ++ s) = .err := by
  rcases err_or_ok cons_comment (c!"{-" ++ s) with e | ⟨v, t, e, -⟩
  · exact e
  · exfalso
    unfold comment at e
    rcases alt_eq_ok.1 e with e | ⟨-, e⟩
    · obtain ⟨t, -, h, -⟩ := lineCommentStatement_iff.1 e
      simp at h
    · obtain ⟨t, -, h', -⟩ := multiLineComment_iff.1 e
      rw [List.append_assoc, List.append_assoc, List.append_cancel_left_eq] at h'
      exact h ⟨_, _, by rw [h', List.append_assoc]⟩

example : comment c!"-- a {- b\nx" = .ok (.Comment c!" a {- b") c!"\nx" := rfl
example : comment c!"{- a {- b -} c -}" = .ok (.Comment c!" a {- b ") c!" c -}" := rfl
example : comment c!"{- a\n -" = .err := rfl
example := C10_wrap (r := c!"x") ⟨next_cons.2 (by decide), by simp⟩ 4294967298 1 .GT (i := 2) (r' := c!"x")
example := C10_small (r := c!"x") ⟨next_cons.2 (by decide), by simp⟩ (n := 4) (by decide) 1 .GT (i := 4) (r' := c!"x")
example := C10_order_lost (r := c!"x") ⟨next_cons.2 (by decide), by simp⟩
example := C10_sameIndent (r := c!"x") (next_cons.2 (by decide)) 4 4 (i := 4) (r' := c!"x")
example := C14_unterminated (s := c!" - } ") (by
  rintro ⟨a, b, h⟩
  match a, h with
  | [], h => simp at h
  | [_], h => simp at h
  | [_, _], h => simp at h
  | [_, _, _], h => simp at h
  | _ :: _ :: _ :: _ :: _ :: _, h => simp at h)
example := C38_same_line (s := c!" x") (s' := c!"   x") (r := c!"x") (last := ⟨1, none⟩) (last' := ⟨3, none⟩)
  ⟨rfl, by decide, by simp, by simp [Line.ok], .inl ⟨rfl, next_cons.2 (by decide), by simp⟩⟩
  ⟨rfl, by decide, by simp, by simp [Line.ok], .inl ⟨rfl, next_cons.2 (by decide), by simp⟩⟩ (by simp) 4 .GT

end ElmParser
