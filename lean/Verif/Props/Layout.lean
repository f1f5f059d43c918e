import Verif.Props.Printed
import Verif.Props.Report

/-! C52: the printed output is well laid out.  The definitions before the lemmas describe a reader of
text that knows nothing of the syntax tree. -/
namespace ElmParser

/-- Where a reader of the output is. -/
inductive Reader where
  /-- after `n` spaces at the start of a line -/
  | start (n : Nat)
  /-- further in a line, outside of literals -/
  | code
  /-- in a literal delimited by `q` -/
  | literal (q : Char)
  /-- in such a literal, after a backslash -/
  | escaped (q : Char)

/-- The bracket that closes `c`. -/
def closedBy (c : Char) : Option Char :=
  if c = '(' then some ')' else if c = '[' then some ']' else if c = '{' then some '}' else none

/-- Is `c` a closing bracket? -/
def isClosing (c : Char) : Bool := c = ')' ∨ c = ']' ∨ c = '}'

/-- Read `c` outside of literals; `op` are the brackets that still have to come, the next one first. -/
def readCode (op : List Char) (c : Char) : Option (Reader × List Char) :=
  if c = '\n' then some (.start 0, op)
  else if c = '"' ∨ c = '\'' then some (.literal c, op)
  else if isClosing c then
    match op with
    | [] => none
    | x :: op => if c = x then some (.code, op) else none
  else
    match closedBy c with
    | some x => some (.code, x :: op)
    | none => some (.code, op)

/-- Read one character.  A line that starts with a closing bracket is indented by four spaces for every
bracket that stays open, any other line for every open bracket.  No literal spans two lines. -/
def readChar : Reader × List Char → Char → Option (Reader × List Char)
  | (.start n, op), c =>
    if c = ' ' then some (.start (n + 1), op)
    else if n = 4 * (if isClosing c then op.length - 1 else op.length) then readCode op c
    else none
  | (.code, op), c => readCode op c
  | (.literal q, op), c =>
    if c = '\n' then none
    else if c = '\\' then some (.escaped q, op)
    else if c = q then some (.code, op)
    else some (.literal q, op)
  | (.escaped q, op), c => if c = '\n' then none else some (.literal q, op)

/-- Read a text. -/
def readText : Reader × List Char → Str → Option (Reader × List Char)
  | x, [] => some x
  | x, c :: s =>
    match readChar x c with
    | some y => readText y s
    | none => none

/-- Whole lines, with all brackets and literals closed, and indented by four spaces for each open bracket. -/
def WellLaid (s : Str) : Prop := readText (.start 0, []) s = some (.start 0, [])

instance (s : Str) : Decidable (WellLaid s) :=
  match h : readText (.start 0, []) s with
  | some (.start 0, []) => .isTrue h
  | some (.start (_ + 1), _) => .isFalse (by rw [WellLaid, h]; simp)
  | some (.start 0, _ :: _) => .isFalse (by rw [WellLaid, h]; simp)
  | some (.code, _) => .isFalse (by rw [WellLaid, h]; simp)
  | some (.literal _, _) => .isFalse (by rw [WellLaid, h]; simp)
  | some (.escaped _, _) => .isFalse (by rw [WellLaid, h]; simp)
  | none => .isFalse (by rw [WellLaid, h]; simp)

theorem readText_append {x y : Reader × List Char} {a b : Str} (h : readText x a = some y) :
    readText x (a ++ b) = readText y b := by
  induction a generalizing x with
  | nil => cases h; rfl
  | cons c a ih =>
    rw [List.cons_append, readText]
    rw [readText] at h
    cases hc : readChar x c with
    | none => rw [hc] at h; cases h
    | some z => rw [hc] at h; exact ih h

theorem wellLaid_append {a b : Str} (ha : WellLaid a) (hb : WellLaid b) : WellLaid (a ++ b) := by
  rw [WellLaid, readText_append ha]; exact hb

theorem wellLaid_flatMap {α : Type} {f : α → Str} {xs : List α} (h : ∀ x ∈ xs, WellLaid (f x)) : WellLaid (xs.flatMap f) := by
  induction xs with
  | nil => rfl
  | cons x xs ih =>
    rw [List.flatMap_cons]
    exact wellLaid_append (h x (by simp)) (ih fun y hy => h y (List.mem_cons_of_mem _ hy))

/-- A character that is nothing special to the reader. -/
def Plain (c : Char) : Prop := c ≠ '\n' ∧ c ≠ '"' ∧ c ≠ '\'' ∧ isClosing c = false ∧ closedBy c = none

theorem readCode_plain {op : List Char} {c : Char} (h : Plain c) : readCode op c = some (.code, op) := by
  obtain ⟨h1, h2, h3, h4, h5⟩ := h
  simp [readCode, h1, h2, h3, h4, h5]

theorem readText_plain {op : List Char} {n : Str} (h : ∀ c ∈ n, Plain c) : readText (.code, op) n = some (.code, op) := by
  induction n with
  | nil => rfl
  | cons c n ih =>
    rw [readText, readChar, readCode_plain (h c (by simp))]
    exact ih fun c hc => h c (List.mem_cons_of_mem _ hc)

theorem plain_of {p : Char → Bool} {c : Char} (hc : p c = true)
    (h : p '\n' = false ∧ p '"' = false ∧ p '\'' = false ∧ p '(' = false ∧ p '[' = false ∧ p '{' = false ∧
      p ')' = false ∧ p ']' = false ∧ p '}' = false) : Plain c := by
  obtain ⟨h1, h2, h3, h4, h5, h6, h7, h8, h9⟩ := h
  have ne : ∀ {x}, p x = false → c ≠ x := by rintro x hx rfl; rw [hc] at hx; cases hx
  refine ⟨ne h1, ne h2, ne h3, ?_, ?_⟩
  · simp [isClosing, ne h7, ne h8, ne h9]
  · simp [closedBy, ne h4, ne h5, ne h6]

theorem plain_letter {c : Char} (h : isLetter c = true) : Plain c := plain_of h (by decide)
theorem plain_digit {c : Char} (h : isDigit c = true) : Plain c := plain_of h (by decide)

theorem readText_spaces {op : List Char} (k n : Nat) (r : Str) :
    readText (.start n, op) (List.replicate k ' ' ++ r) = readText (.start (n + k), op) r := by
  induction k generalizing n with
  | zero => rfl
  | succ k ih =>
    rw [List.replicate_succ, List.cons_append, readText, readChar, if_pos rfl]
    dsimp only
    rw [ih (n + 1), Nat.add_right_comm]; rfl

theorem readText_line {op : List Char} (d : Nat) (r : Str) :
    readText (.code, op) (line d ++ r) = readText (.start (4 * d), op) r := by
  have : readText (.code, op) (line d ++ r) = readText (.start 0, op) (List.replicate (4 * d) ' ' ++ r) := rfl
  rw [this, readText_spaces, Nat.zero_add]

/-- A line that does not start with a space or a closing bracket. -/
theorem readText_start {op : List Char} {c : Char} (h1 : c ≠ ' ') (h2 : isClosing c = false) (t : Str) :
    readText (.start (4 * op.length), op) (c :: t) = readText (.code, op) (c :: t) := by
  rw [readText, readText, readChar, readChar, if_neg h1, h2]
  simp

/-- A line that starts with the closing bracket. -/
theorem readText_close {op : List Char} {c : Char} (h : isClosing c = true) (t : Str) :
    readText (.code, c :: op) (line op.length ++ c :: t) = readText (.code, op) t := by
  rw [readText_line, readText, readChar, if_neg (by rintro rfl; cases h), h]
  have : readCode (c :: op) c = some (.code, op) := by
    unfold readCode
    rw [if_neg (by rintro rfl; cases h), if_neg (by rintro (rfl | rfl) <;> cases h), if_pos h]
    simp
  simp [this]

/-! ### Literals -/

theorem readText_escape (st : Style) {q : Char} (hq : q = '"' ∨ q = '\'') (op : List Char) (c : Char) :
    readText (.literal q, op) (escape st q c) = some (.literal q, op) := by
  have hq1 : q ≠ '\\' := by rcases hq with rfl | rfl <;> decide
  have hex : ∀ {s : Str}, (∀ c ∈ s, isHex c = true) → readText (.literal q, op) s = some (.literal q, op) := by
    intro s hs
    induction s with
    | nil => rfl
    | cons c s ih =>
      have hc := hs c (by simp)
      have h1 : c ≠ '\n' := by rintro rfl; cases hc
      have h2 : c ≠ '\\' := by rintro rfl; cases hc
      have h3 : c ≠ q := by rintro rfl; rcases hq with rfl | rfl <;> cases hc
      rw [readText, readChar, if_neg h1, if_neg h2, if_neg h3]
      exact ih fun c hc => hs c (List.mem_cons_of_mem _ hc)
  have two : ∀ {x}, x ≠ '\n' → readText (.literal q, op) ['\\', x] = some (.literal q, op) := by
    intro x hx; simp [readText, readChar, hx]
  unfold escape
  split
  · exact two (by decide)
  split
  · exact two (by decide)
  split
  · exact two (by decide)
  split
  · exact two (by decide)
  next _ _ hn _ =>
  split
  · exact two hn
  split
  · exact two hn
  split
  · exact two (by decide)
  split
  · have h1 : readText (.literal q, op) c!"\\u{" = some (.literal q, op) := by
      rcases hq with rfl | rfl <;> rfl
    have h2 : readText (.literal q, op) c!"}" = some (.literal q, op) := by
      rcases hq with rfl | rfl <;> rfl
    rw [List.append_assoc, readText_append h1, readText_append (hex (natText_hex _)), h2]
  · next hb hc _ _ _ => simp [readText, readChar, hn, hb, hc]

theorem readText_open {q : Char} (hq : q = '"' ∨ q = '\'') (op : List Char) (t : Str) :
    readText (.code, op) (q :: t) = readText (.literal q, op) t := by
  rcases hq with rfl | rfl <;> rfl

theorem readText_shut {q : Char} (hq : q = '"' ∨ q = '\'') (op : List Char) :
    readText (.literal q, op) [q] = some (.code, op) := by
  rcases hq with rfl | rfl <;> rfl

theorem readText_str (st : Style) (op : List Char) (s : Str) : readText (.code, op) (strText st s) = some (.code, op) := by
  have : readText (.literal '"', op) (s.flatMap (escape st '"')) = some (.literal '"', op) := by
    induction s with
    | nil => rfl
    | cons c s ih => rw [List.flatMap_cons, readText_append (readText_escape st (.inl rfl) op c), ih]
  rw [strText, List.cons_append, readText_open (.inl rfl), readText_append this, readText_shut (.inl rfl)]

theorem readText_chr (st : Style) (op : List Char) (c : Char) : readText (.code, op) (charText st c) = some (.code, op) := by
  rw [charText, List.cons_append, readText_open (.inr rfl), readText_append (readText_escape st (.inr rfl) op c),
    readText_shut (.inr rfl)]

theorem readText_int (op : List Char) (n : Int) : readText (.code, op) (intText n) = some (.code, op) := by
  cases n with
  | ofNat n => exact readText_plain fun c hc => plain_digit (natText_digit _ c hc)
  | negSucc n =>
    refine readText_plain fun c hc => ?_
    rcases List.mem_cons.1 hc with rfl | hc
    · simp [Plain, isClosing, closedBy]
    · exact plain_digit (natText_digit _ c hc)

/-! ### Values -/

theorem readText_name {n : Str} (h : Letters n) (op : List Char) (t : Str) :
    readText (.code, op) (n ++ t) = readText (.code, op) t :=
  readText_append (readText_plain fun c hc => plain_letter (h c hc))

theorem readText_comma (st : Style) (b : Bool) (op : List Char) (t : Str) :
    readText (.code, op) (commaAfter st b ++ t) = readText (.code, op) t := by
  unfold commaAfter
  split
  · rfl
  · exact readText_append (readText_plain (by simp [Plain, isClosing, closedBy]))

/-- The first character of a value is not a space or a closing bracket. -/
theorem render_start (st : Style) (d : Nat) (x : Dbg) (hx : x.Named) (r : Str) :
    ∃ c t, render st d x ++ r = c :: t ∧ c ≠ ' ' ∧ isClosing c = false := by
  have name : ∀ (n u : Str), Letters n → (n = [] → ∃ v, u = '(' :: v) →
      ∃ c t, n ++ u = c :: t ∧ c ≠ ' ' ∧ isClosing c = false := by
    intro n u hn hu
    cases n with
    | nil => obtain ⟨v, rfl⟩ := hu rfl; exact ⟨_, _, rfl, by decide, rfl⟩
    | cons c n =>
      have := hn c (by simp)
      exact ⟨c, n ++ u, rfl, (by rintro rfl; cases this), (plain_letter this).2.2.2.1⟩
  cases x with
  | str s => rw [render, strText]; exact ⟨_, _, rfl, by decide, rfl⟩
  | chr s => rw [render, charText]; exact ⟨_, _, rfl, by decide, rfl⟩
  | int n =>
    rw [render]
    cases n with
    | ofNat n =>
      obtain ⟨c, t, e, hc⟩ := natText_cons n
      exact ⟨c, t ++ r, by rw [intText, e]; rfl, (by rintro rfl; cases hc), (plain_digit hc).2.2.2.1⟩
    | negSucc n => exact ⟨_, _, rfl, by decide, rfl⟩
  | list xs =>
    rw [render]
    split <;> exact ⟨_, _, rfl, by decide, rfl⟩
  | tuple n fs =>
    rw [Dbg.Named] at hx
    rw [render]
    split
    · next hf =>
      rw [List.isEmpty_iff] at hf
      exact name n r hx.1 fun h => absurd h (hx.2.1 hf)
    · simp only [List.append_assoc, List.cons_append]
      exact name n _ hx.1 fun _ => ⟨_, rfl⟩
  | struct n fs =>
    rw [Dbg.Named] at hx
    rw [render]
    simp only [List.append_assoc]
    exact name n _ hx.1 fun h => absurd h hx.2.1

theorem readText_value (st : Style) {op : List Char} (x : Dbg) (hx : x.Named) (r : Str) :
    readText (.start (4 * op.length), op) (render st op.length x ++ r) =
      readText (.code, op) (render st op.length x ++ r) := by
  obtain ⟨c, t, e, h1, h2⟩ := render_start st op.length x hx r
  rw [e, readText_start h1 h2]

mutual
theorem readText_render (st : Style) : (x : Dbg) → x.Named → (op : List Char) → (r : Str) →
    readText (.code, op) (render st op.length x ++ r) = readText (.code, op) r
  | .str s, _, op, r => by rw [render]; exact readText_append (readText_str st op s)
  | .chr c, _, op, r => by rw [render]; exact readText_append (readText_chr st op c)
  | .int n, _, op, r => by rw [render]; exact readText_append (readText_int op n)
  | .tuple n fs, h, op, r => by
    rw [Dbg.Named] at h
    rw [render]
    split
    · exact readText_name h.1 op r
    · simp only [List.append_assoc, List.cons_append, List.nil_append]
      rw [readText_name h.1]
      have : ∀ t, readText (.code, op) ('(' :: t) = readText (.code, ')' :: op) t := fun _ => rfl
      rw [this]
      have e : op.length + 1 = (')' :: op).length := rfl
      rw [e, readText_items st fs h.2.2]
      exact readText_close rfl r
  | .struct n fs, h, op, r => by
    rw [Dbg.Named] at h
    rw [render]
    simp only [List.append_assoc, List.cons_append, List.nil_append]
    rw [readText_name h.1]
    have : ∀ t, readText (.code, op) (' ' :: '{' :: t) = readText (.code, '}' :: op) t := fun _ => rfl
    rw [this]
    have e : op.length + 1 = ('}' :: op).length := rfl
    rw [e, readText_fields st fs h.2.2]
    exact readText_close rfl r
  | .list xs, h, op, r => by
    rw [Dbg.Named] at h
    rw [render]
    split
    · rfl
    · simp only [List.append_assoc, List.cons_append, List.nil_append]
      have : ∀ t, readText (.code, op) ('[' :: t) = readText (.code, ']' :: op) t := fun _ => rfl
      rw [this]
      have e : op.length + 1 = (']' :: op).length := rfl
      rw [e, readText_items st xs h]
      exact readText_close rfl r
theorem readText_items (st : Style) : (xs : List Dbg) → NamedAll xs → {op : List Char} → {r : Str} →
    readText (.code, op) (renderItems st op.length xs ++ r) = readText (.code, op) r
  | [], _, _, _ => by rw [renderItems]; rfl
  | x :: xs, h, op, r => by
    rw [NamedAll] at h
    rw [renderItems]
    simp only [List.append_assoc]
    rw [readText_line, readText_value st x h.1, readText_render st x h.1, readText_comma]
    exact readText_items st xs h.2
theorem readText_fields (st : Style) : (xs : List (Str × Dbg)) → NamedFields xs → {op : List Char} → {r : Str} →
    readText (.code, op) (renderFields st op.length xs ++ r) = readText (.code, op) r
  | [], _, _, _ => by rw [renderFields]; rfl
  | (n, x) :: xs, h, op, r => by
    rw [NamedFields] at h
    rw [renderFields]
    simp only [List.append_assoc, List.cons_append, List.nil_append]
    have colon : ∀ t, readText (.code, op) (':' :: ' ' :: t) = readText (.code, op) t := fun _ => rfl
    have start : ∀ t, readText (.start (4 * op.length), op) (n ++ ':' :: t) = readText (.code, op) (n ++ ':' :: t) := by
      intro t
      cases n with
      | nil => exact readText_start (by decide) rfl t
      | cons c n =>
        have := h.1 c (by simp)
        exact readText_start (by rintro rfl; cases this) (plain_letter this).2.2.2.1 _
    rw [readText_line, start, readText_name h.1, colon, readText_render st x h.2.1, readText_comma]
    exact readText_fields st xs h.2.2
end

theorem wellLaid_render (st : Style) (x : Dbg) (hx : x.Named) : WellLaid (render st 0 x ++ ['\n']) := by
  have h1 := readText_value st (op := []) x hx ['\n']
  have h2 := readText_render st x hx [] ['\n']
  rw [WellLaid]
  exact h1.trans h2

theorem wellLaid_path (st : Style) (p m : Str) (hm : readText (.code, []) m = some (.start 0, [])) :
    WellLaid (strText st p ++ m) := by
  have h1 := readText_value st (op := []) (.str p) (by simp [Dbg.Named]) m
  rw [WellLaid]
  rw [render] at h1
  exact h1.trans ((readText_append (readText_str st [] p)).trans hm)

/-- C52: what is printed for a tree is well laid out, whatever the tree. -/
theorem C52_tree (st : Style) (e : Str) (sts : List Statement) : WellLaid (msgText st e (.tree sts)) :=
  wellLaid_render st _ (named_statements sts)

/-- C52: so is every other message but the usage and the errors of `statements`. -/
theorem C52_message (st : Style) (e : Str) (m : Msg) (h1 : ∀ p, m ≠ .usage p) (h2 : m ≠ .error .other) :
    WellLaid (msgText st e m) := by
  cases m with
  | usage p => exact absurd rfl (h1 p)
  | names ns => exact wellLaid_render st _ (named_names ns)
  | error f =>
    cases f with
    | eof rest =>
      refine wellLaid_render st _ ?_
      simp [dbgEof, Dbg.Named, NamedAll, Letters, isLetter]
    | other => exact absurd rfl h2
  | tree sts => exact C52_tree st e sts
  | parsed p => exact wellLaid_path st p _ rfl
  | failed p => exact wellLaid_path st p _ rfl

/-- C52: and so are the lines the parser prints itself, hence the whole output of a run. -/
theorem C52_stdout (st : Style) (e : Str) (o : Trace.Output)
    (h : ∀ m, .msg m ∈ o.out → (∀ p, m ≠ .usage p) ∧ m ≠ .error .other) : WellLaid (Trace.stdout st e o) := by
  refine wellLaid_flatMap fun x hx => ?_
  cases x with
  | hex r =>
    cases r with
    | none =>
      have : WellLaid c!"Err(ParseIntError { kind: InvalidDigit })\n" := rfl
      exact this
    | some n =>
      have h1 : readText (.start 0, []) c!"Ok(" = some (.code, [')']) := rfl
      rw [Trace.lineText, List.append_assoc, WellLaid, readText_append h1,
        readText_append (readText_plain fun c hc => plain_digit (natText_digit _ c hc))]
      rfl
  | msg m => exact C52_message st e m (h m hx).1 (h m hx).2

namespace Trace

/-- The messages of a run are neither the usage nor an error of `statements`. -/
def Clear (ls : List Line) : Prop := ∀ m, .msg m ∈ ls → (∀ p, m ≠ .usage p) ∧ m ≠ .error .other

theorem clear_lines {es : List Event} {m : Msg} (h : Clear [.msg m]) : Clear (lines es ++ [.msg m]) := by
  intro x hx
  rcases List.mem_append.1 hx with hx | hx
  · obtain ⟨e, -, h2⟩ := List.mem_filterMap.1 hx
    cases e <;> cases h2
  · exact h x hx

theorem clear_dumpFile {read : Str → Read} {p : Str} {quiet : Bool}
    (h : ∀ s, read p = .contents s → quiet = true ∨ failure s ≠ .other ∨ ∃ sts, ElmParser.file s = .ok sts []) :
    Clear (dumpFile read p quiet).1 := by
  have only : ∀ {es}, Clear (lines es) := by
    intro es x hx
    obtain ⟨e, -, h2⟩ := List.mem_filterMap.1 hx
    cases e <;> cases h2
  unfold dumpFile
  split
  · intro m hm; cases hm
  next s hr =>
  have hf := er_file s
  split
  · refine clear_lines ?_
    intro m hm
    cases quiet <;> simp at hm <;> subst hm <;> simp
  · next es he =>
    refine clear_lines ?_
    rw [he] at hf
    intro m hm
    cases hq : quiet with
    | true => simp [hq] at hm; subst hm; simp
    | false =>
      simp [hq] at hm
      subst hm
      refine ⟨by simp, ?_⟩
      rcases h s hr with h | h | ⟨sts, h⟩
      · rw [hq] at h; cases h
      · intro e; exact h (Msg.error.inj e)
      · rw [← hf] at h; cases h
  · exact only
  · exact only

theorem clear_dumpDirectory {read : Str → Read} {quiet : Bool}
    (h : ∀ p s, read p = .contents s → quiet = true ∨ failure s ≠ .other ∨ ∃ sts, ElmParser.file s = .ok sts [])
    (walk : List (Option Entry)) : Clear (dumpDirectory read quiet walk).out := by
  induction walk with
  | nil => intro m hm; cases hm
  | cons x walk ih =>
    cases x with
    | none => intro m hm; cases hm
    | some x =>
      rw [dumpDirectory]
      split
      · exact ih
      split
      · exact ih
      next p _ =>
      split
      · exact ih
      have hf := clear_dumpFile (h p)
      split
      · next he => rw [he] at hf; exact hf
      · next he =>
        rw [he] at hf
        intro m hm
        rcases List.mem_append.1 hm with hm | hm
        · exact hf m hm
        · exact ih m hm

end Trace

/-- C52: the whole output of the dumper is well laid out if it is quiet, and else if no file makes the parser fail in
its first declaration. -/
theorem C52_dump (st : Style) (e : Str) {read : Str → Read} {quiet : Bool}
    (h : ∀ p s, read p = .contents s → quiet = true ∨ failure s ≠ .other ∨ ∃ sts, file s = .ok sts [])
    (isDir : Str → Option Bool) (walk : Str → List (Option Entry)) (path : Option Str) :
    WellLaid (Trace.stdout st e (Trace.dumpMain read isDir walk path quiet)) := by
  refine C52_stdout st e _ ?_
  unfold Trace.dumpMain
  split
  · intro m hm; cases hm
  next p =>
  split
  · intro m hm; cases hm
  · exact Trace.clear_dumpDirectory h _
  · have hf := Trace.clear_dumpFile (h p)
    split <;> next he => rw [he] at hf; exact hf

/-! ### Examples -/

/-- Text with brackets, quotes and newlines in its strings. -/
example (st : Style) : WellLaid (msgText st [] (.tree [.Comment c!"( [ { ' \" \\ \n   ) \t", .Function (.mk none
    (.mk c!"x" [] (.List [.Character '"', .Character '\'', .Record []])))])) := C52_tree st [] _

set_option maxRecDepth 20000 in
/-- The output for a directory with three files, one of which is not read to its end. -/
example : WellLaid (Trace.stdout ⟨false, true, true, fun c => c.toNat == 0x301⟩ [] (Trace.dumpMain
    (fun p => .contents (if p = c!"a.elm" then c!"x = '\\x00'" else if p = c!"b.elm" then c!"x = \"{\"\n)" else c!"import A"))
    (fun _ => some true) (fun _ => [some ⟨some c!"a.elm", false⟩, some ⟨some c!"b.elm", false⟩, some ⟨some c!"c.elm", false⟩])
    (some c!"src") false)) := by
  refine C52_dump _ _ (fun p s h => ?_) _ _ _
  cases h
  split
  · exact .inr (.inr ⟨_, rfl⟩)
  split
  · exact .inr (.inl (by simp [show failure c!"x = \"{\"\n)" = .eof c!")" from rfl]))
  · exact .inr (.inr ⟨_, rfl⟩)

/-- Text that is not well laid out: a wrong indentation, a bracket too many, the wrong bracket, a bracket too few, a
literal over two lines, an open literal, a line that does not end. -/
example : ¬ WellLaid c!"A(\n  \"x\",\n)\n" := by decide
example : ¬ WellLaid c!"A(\n    \"x\",\n    )\n" := by decide
example : ¬ WellLaid c!"A)\n" := by decide
example : ¬ WellLaid c!"A(\n    B,\n]\n" := by decide
example : ¬ WellLaid c!"A(\n    B,\n" := by decide
example : ¬ WellLaid c!"\"a\nb\"\n" := by decide
example : ¬ WellLaid c!"\"a\n" := by decide
example : ¬ WellLaid c!"A" := by decide
/-- Text that is: brackets on one line count as well. -/
example : WellLaid c!"A([\n        \"(\",\n    ]\n)\n" := by decide
example (st : Style) := C52_message st [] (.error (.eof c!"( \"")) (by simp) (by simp)
example (st : Style) := C52_stdout st [] ⟨[.hex (some 65), .msg (.names [c!"f"])], .code 0⟩ (by simp)

end ElmParser
