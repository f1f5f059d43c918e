import Verif.Proofs.Printed
import Verif.Props.Cost
import Verif.Props.Output

/-! C46: the lines the parser prints itself. -/
namespace ElmParser
open Spec

/-- C46: leaving out what it prints, the parser is the one of the other properties. -/
theorem C46_results (ind : Nat) (s : Str) : (Trace.expression ind s).1 = expression ind s ∧
    (Trace.term ind s).1 = term ind s ∧ (Trace.function ind s).1 = function ind s ∧
    (Trace.statement s).1 = statement s ∧ (Trace.file s).1 = file s :=
  ⟨Trace.er_expression ind s, Trace.er_term ind s, Trace.er_function ind s, Trace.er_statement s, Trace.er_file s⟩

/-- `r` is what `u8::from_str_radix(.., 16)` makes of the two characters after some `'\x` of `s`. -/
def HexIn (s : Str) (r : Option Nat) : Prop :=
  ∃ a b, ['\'', '\\', 'x', a, b] <:+: s ∧ ∀ v, r = some v ↔ HexCode a b v

theorem hexIn_of {s : Str} {r : Option Nat} (h : Trace.Q s (.hex r)) : HexIn s r := by
  obtain ⟨a, b, h1, rfl⟩ := h r rfl
  exact ⟨a, b, h1, fun v => fromHex_iff⟩

namespace Trace

theorem mem_lines {es : List Event} {r : Option Nat} : .hex r ∈ lines es ↔ .hex r ∈ es := by
  unfold lines
  rw [List.mem_filterMap]
  constructor
  · rintro ⟨e, h1, h2⟩
    cases e with
    | call => cases h2
    | ty => cases h2
    | hex r => cases h2; exact h1
  · exact fun h => ⟨_, h, rfl⟩

end Trace

/-- C46: every line is for a `'\x` of the text and the two characters after it. -/
theorem C46_lines {ind : Nat} {s : Str} {r : Option Nat} (h : .hex r ∈ Trace.lines (Trace.expression ind s).2 ∨
    .hex r ∈ Trace.lines (Trace.term ind s).2 ∨ .hex r ∈ Trace.lines (Trace.function ind s).2 ∨
    .hex r ∈ Trace.lines (Trace.statement s).2 ∨ .hex r ∈ Trace.lines (Trace.file s).2) : HexIn s r := by
  rcases h with h | h | h | h | h
  · exact hexIn_of ((Trace.ev_expression ind s).1 _ (Trace.mem_lines.1 h))
  · exact hexIn_of ((Trace.ev_term ind s).1 _ (Trace.mem_lines.1 h))
  · exact hexIn_of ((Trace.ev_function ind s).1 _ (Trace.mem_lines.1 h))
  · exact hexIn_of ((Trace.ev_statement s).1 _ (Trace.mem_lines.1 h))
  · exact hexIn_of ((Trace.ev_file s).1 _ (Trace.mem_lines.1 h))

example : HexIn c!"f '\\x4G'" none := ⟨'4', 'G', ⟨c!"f ", c!"'", rfl⟩, fun v => by
  rw [← fromHex_iff]; exact .rfl⟩

namespace Trace

theorem lines_nil {es : List Event} (h : ∀ r, .hex r ∉ es) : lines es = [] := by
  unfold lines
  rw [List.filterMap_eq_nil_iff]
  intro e he
  cases e with
  | call => rfl
  | ty => rfl
  | hex r => exact absurd he (h r)

end Trace

/-- C46: a text without `'\x` is parsed without printing. -/
theorem C46_silent {s : Str} (h : ¬ c!"'\\x" <:+: s) : Trace.lines (Trace.file s).2 = [] := by
  refine Trace.lines_nil fun r hr => h ?_
  obtain ⟨a, b, h1, -⟩ := C46_lines (ind := 0) (.inr (.inr (.inr (.inr (Trace.mem_lines.2 hr)))))
  exact .trans ⟨[], [a, b], rfl⟩ h1

namespace Trace

/-- The lines of the binaries. -/
def messages (ls : List Line) : List Msg :=
  ls.filterMap fun
    | .hex _ => none
    | .msg m => some m

theorem messages_lines (es : List Event) : messages (lines es) = [] := by
  unfold messages lines
  rw [List.filterMap_eq_nil_iff]
  intro l hl
  obtain ⟨e, -, h⟩ := List.mem_filterMap.1 hl
  cases e with
  | call => cases h
  | ty => cases h
  | hex r => cases h; rfl

theorem messages_append (as bs : List Line) : messages (as ++ bs) = messages as ++ messages bs := List.filterMap_append

theorem dumpFile_messages (read : Str → Read) (p : Str) (quiet : Bool) :
    match dumpFile read p quiet with
    | (ls, some e) => ElmParser.dumpFile read p quiet = .error e ∧ messages ls = []
    | (ls, none) => ∃ m, ElmParser.dumpFile read p quiet = .ok m ∧ messages ls = [m] := by
  unfold dumpFile ElmParser.dumpFile
  cases read p with
  | failed => exact ⟨rfl, rfl⟩
  | contents s =>
    simp only
    rw [← er_file s]
    cases file s with
    | mk x es =>
      cases x with
      | ok v r => exact ⟨_, rfl, by rw [messages_append, messages_lines]; rfl⟩
      | err => exact ⟨_, rfl, by rw [messages_append, messages_lines]; rfl⟩
      | panic => exact ⟨rfl, messages_lines _⟩
      | div => exact ⟨rfl, messages_lines _⟩

theorem dumpDirectory_messages (read : Str → Read) (quiet : Bool) (walk : List (Option Entry)) :
    messages (dumpDirectory read quiet walk).out = (ElmParser.dumpDirectory read quiet walk).out ∧
    (dumpDirectory read quiet walk).exit = (ElmParser.dumpDirectory read quiet walk).exit := by
  induction walk with
  | nil => exact ⟨rfl, rfl⟩
  | cons e walk ih =>
    cases e with
    | none => exact ⟨rfl, rfl⟩
    | some e =>
      unfold dumpDirectory ElmParser.dumpDirectory
      by_cases hd : e.isDir = true
      · rw [if_pos hd, if_pos hd]; exact ih
      · rw [if_neg hd, if_neg hd]
        cases e.path with
        | none => exact ih
        | some p =>
          simp only
          by_cases he : extension p ≠ some c!"elm"
          · rw [if_pos he, if_pos he]; exact ih
          · rw [if_neg he, if_neg he]
            have := dumpFile_messages read p quiet
            cases hd : dumpFile read p quiet with
            | mk ls o =>
              rw [hd] at this
              cases o with
              | some e => simp only at this; rw [this.1]; exact ⟨this.2, rfl⟩
              | none =>
                simp only at this
                obtain ⟨m, h1, h2⟩ := this
                rw [h1]
                exact ⟨by simp only [messages_append, h2, ih.1]; rfl, ih.2⟩

end Trace

/-- C46: apart from those lines, the checker prints and exits as in C32. -/
theorem C46_check (read : Str → Read) (args : List Str) :
    Trace.messages (Trace.checkMain read args).out = (checkMain read args).out ∧
    (Trace.checkMain read args).exit = (checkMain read args).exit := by
  unfold Trace.checkMain checkMain
  by_cases ha : args.length < 2
  · rw [if_pos ha, if_pos ha]
    cases args <;> exact ⟨rfl, rfl⟩
  · rw [if_neg ha, if_neg ha]
    cases args[1]? with
    | none => exact ⟨rfl, rfl⟩
    | some f =>
      simp only
      cases read f with
      | failed => exact ⟨rfl, rfl⟩
      | contents s =>
        simp only
        rw [← Trace.er_file s]
        cases Trace.file s with
        | mk x es =>
          cases x with
          | ok v r => exact ⟨by simp only [Trace.messages_append, Trace.messages_lines]; rfl, rfl⟩
          | err => exact ⟨by simp only [Trace.messages_append, Trace.messages_lines]; rfl, rfl⟩
          | panic => exact ⟨Trace.messages_lines _, rfl⟩
          | div => exact ⟨Trace.messages_lines _, rfl⟩

/-- C46: apart from those lines, the dumper prints and exits as in C33. -/
theorem C46_dump (read : Str → Read) (isDir : Str → Option Bool) (walk : Str → List (Option Entry)) (path : Option Str)
    (quiet : Bool) :
    Trace.messages (Trace.dumpMain read isDir walk path quiet).out = (dumpMain read isDir walk path quiet).out ∧
    (Trace.dumpMain read isDir walk path quiet).exit = (dumpMain read isDir walk path quiet).exit := by
  unfold Trace.dumpMain dumpMain
  cases path with
  | none => exact ⟨rfl, rfl⟩
  | some p =>
    simp only
    cases isDir p with
    | none => exact ⟨rfl, rfl⟩
    | some b =>
      cases b with
      | true => exact Trace.dumpDirectory_messages read quiet (walk p)
      | false =>
        simp only
        have := Trace.dumpFile_messages read p quiet
        cases hd : Trace.dumpFile read p quiet with
        | mk ls o =>
          rw [hd] at this
          cases o with
          | some e => simp only at this; rw [this.1]; exact ⟨this.2, rfl⟩
          | none =>
            simp only at this
            obtain ⟨m, h1, h2⟩ := this
            rw [h1]
            exact ⟨h2, rfl⟩

namespace Trace

theorem out_of_silent {st : Style} {e : Str} {ls : List Line} (h : ∀ r, .hex r ∉ ls) :
    ls.flatMap (lineText st e) = (messages ls).flatMap (msgText st e) := by
  induction ls with
  | nil => rfl
  | cons l ls ih =>
    have ih := ih fun r hr => h r (List.mem_cons_of_mem _ hr)
    cases l with
    | hex r => exact absurd (by simp) (h r)
    | msg m => rw [List.flatMap_cons, ih]; rfl

theorem dumpFile_hex {read : Str → Read} {p : Str} {quiet : Bool} {r : Option Nat} (h : .hex r ∈ (dumpFile read p quiet).1) :
    ∃ s, read p = .contents s ∧ .hex r ∈ (file s).2 := by
  unfold dumpFile at h
  cases hr : read p with
  | failed => rw [hr] at h; cases h
  | contents s =>
    rw [hr] at h
    simp only at h
    refine ⟨s, rfl, ?_⟩
    cases hf : file s with
    | mk x es =>
      rw [hf] at h
      cases x with
      | ok v t => exact mem_lines.1 ((List.mem_append.1 h).resolve_right (by simp))
      | err => exact mem_lines.1 ((List.mem_append.1 h).resolve_right (by simp))
      | panic => exact mem_lines.1 h
      | div => exact mem_lines.1 h

theorem dumpDirectory_hex {read : Str → Read} {quiet : Bool} {walk : List (Option Entry)} {r : Option Nat}
    (h : .hex r ∈ (dumpDirectory read quiet walk).out) : ∃ p s, read p = .contents s ∧ .hex r ∈ (file s).2 := by
  induction walk with
  | nil => cases h
  | cons e walk ih =>
    cases e with
    | none => cases h
    | some e =>
      unfold dumpDirectory at h
      split at h
      · exact ih h
      · split at h
        · exact ih h
        · split at h
          · exact ih h
          · next p _ _ =>
            cases hd : dumpFile read p quiet with
            | mk ls o =>
              rw [hd] at h
              have := dumpFile_hex (read := read) (p := p) (quiet := quiet) (r := r)
              rw [hd] at this
              cases o with
              | some e => exact ⟨p, this h⟩
              | none => exact (List.mem_append.1 h).elim (fun h => ⟨p, this h⟩) ih

theorem dumpMain_hex {read : Str → Read} {isDir : Str → Option Bool} {walk : Str → List (Option Entry)} {path : Option Str}
    {quiet : Bool} {r : Option Nat} (h : .hex r ∈ (dumpMain read isDir walk path quiet).out) :
    ∃ p s, read p = .contents s ∧ .hex r ∈ (file s).2 := by
  unfold dumpMain at h
  split at h
  · cases h
  · next p =>
    split at h
    · cases h
    · exact dumpDirectory_hex h
    · cases hd : dumpFile read p quiet with
      | mk ls o =>
        rw [hd] at h
        have := dumpFile_hex (read := read) (p := p) (quiet := quiet) (r := r)
        rw [hd] at this
        cases o with
        | some e => exact ⟨p, this h⟩
        | none => exact ⟨p, this h⟩

theorem checkMain_hex {read : Str → Read} {args : List Str} {r : Option Nat} (h : .hex r ∈ (checkMain read args).out) :
    ∃ p s, read p = .contents s ∧ .hex r ∈ (file s).2 := by
  unfold checkMain at h
  split at h
  · split at h <;> simp at h
  · split at h
    · cases h
    · next f _ =>
      cases hr : read f with
      | failed => rw [hr] at h; cases h
      | contents s =>
        rw [hr] at h
        simp only at h
        refine ⟨f, s, hr, ?_⟩
        cases hf : file s with
        | mk x es =>
          rw [hf] at h
          cases x with
          | ok v t => exact mem_lines.1 ((List.mem_append.1 h).resolve_right (by simp))
          | err => exact mem_lines.1 ((List.mem_append.1 h).resolve_right (by simp))
          | panic => exact mem_lines.1 h
          | div => exact mem_lines.1 h

end Trace

/-- C46: if no file has a `'\x`, the output is that of C41, to the letter. -/
theorem C46_stdout {st : Style} {e : Str} {read : Str → Read} (h : ∀ p s, read p = .contents s → ¬ c!"'\\x" <:+: s) :
    (∀ args, Trace.stdout st e (Trace.checkMain read args) = stdout st e (checkMain read args)) ∧
    ∀ isDir walk path quiet, Trace.stdout st e (Trace.dumpMain read isDir walk path quiet) =
      stdout st e (dumpMain read isDir walk path quiet) := by
  have key : ∀ {r}, ¬ ∃ p s, read p = .contents s ∧ .hex r ∈ (Trace.file s).2 := by
    rintro r ⟨p, s, h1, h2⟩
    have := Trace.mem_lines.2 h2
    rw [C46_silent (h p s h1)] at this
    cases this
  constructor
  · intro args
    unfold Trace.stdout stdout
    rw [Trace.out_of_silent fun r hr => key (Trace.checkMain_hex hr), (C46_check read args).1]
  · intro isDir walk path quiet
    unfold Trace.stdout stdout
    rw [Trace.out_of_silent fun r hr => key (Trace.dumpMain_hex hr), (C46_dump read isDir walk path quiet).1]

/-! ### What is printed -/

namespace Trace
@[inherit_doc] local infixr:20 " </> " => alt

theorem alt_events {α : Type} {p q : TP α} {s : Str} (hq : (q s).2 = []) : ((p </> q) s).2 = (p s).2 := by
  unfold alt
  cases p s with
  | mk x n => cases x <;> simp [hq]

theorem alt_free_err {α : Type} {p : Parser α} {q : TP α} {s : Str} (h : p s = .err) : (free p </> q) s = q s := by
  simp [alt, free, h]

theorem term_quote (ind : Nat) (s : Str) : (term ind ('\'' :: s)).2 = (hexChar s).2 := by
  unfold term termF
  rw [alt_free_err rfl, alt_free_err rfl, alt_free_err rfl, alt_free_err rfl, alt_free_err rfl, alt_free_err rfl,
    alt_events rfl, character_quote]

end Trace

/-- C46: a term that starts with `'\x` prints one line for the two characters that follow, whether or not they are
hexadecimal digits, and whether or not a quotation mark follows. -/
theorem C46_term (ind : Nat) (a b : Char) (r : Str) :
    ∃ n, Trace.lines (Trace.term ind (c!"'\\x" ++ a :: b :: r)).2 = [.hex n] ∧ ∀ v, n = some v ↔ HexCode a b v :=
  ⟨fromHex [a, b], congrArg Trace.lines ((Trace.term_quote ind _).trans (Trace.hexChar_events a b r)), fun _ => fromHex_iff⟩

/-- C46: a term that starts with `'` but not with `'\x` and two characters prints nothing. -/
theorem C46_term_silent {ind : Nat} {s : Str} (h : ¬ ∃ a b r, s = '\\' :: 'x' :: a :: b :: r) :
    Trace.lines (Trace.term ind ('\'' :: s)).2 = [] := by
  suffices h : (Trace.term ind ('\'' :: s)).2 = [] by rw [h]; rfl
  rw [Trace.term_quote, ← Trace.character_quote]
  rcases Trace.character_events ('\'' :: s) with h1 | ⟨a, b, r, h1, -⟩
  · exact h1
  · exact absurd ⟨a, b, r, (List.cons.inj h1).2⟩ h

/-- `'\xab'` inside `n` pairs: `('\xab',x)`, `(('\xab',x),x)`, ... -/
def hexPairs (a b : Char) : Nat → Str
  | 0 => ['\'', '\\', 'x', a, b, '\'']
  | n + 1 => c!"(" ++ hexPairs a b n ++ c!",x)"

/-- Their trees. -/
def hexPairsTree (v : Nat) : Nat → Expr
  | 0 => .Character (Char.ofNat v)
  | n + 1 => .Tuple [hexPairsTree v n, .Variable [c!"x"]]

theorem hexPairs_src {a b : Char} {v : Nat} (h : HexCode a b v) (ind n : Nat) :
    Src True ind (.expr (hexPairsTree v n)) (hexPairs a b n) := by
  have hx : Src True ind (.expr (.Variable [c!"x"])) c!"x" :=
    .eApp (.app (c := c!"x") (cs := []) (es := []) (ex_var ind ex_x) .args0)
  have hw : Whites [] := by simp [Whites]
  induction n with
  | zero =>
    have := SrcAt.char (st := True) (ind := ind) (j := ind + 1) (w := ['\\', 'x', a, b]) (x := Char.ofNat v)
      (.inr ⟨a, b, v, rfl, h, rfl⟩)
    exact ex_term (.closed this)
  | succ n ih =>
    have := SrcAt.tuple (j := ind + 1) hw hw ih.low (.comps hw hw hx.low .comps0) (by simp)
    have := SrcAt.eApp (.app (es := []) (cs := []) (.closed this) .args0)
    simpa [hexPairs, hexPairsTree] using this

/-- The number of lines. -/
def Trace.printed {α : Type} (x : Res α × List Trace.Event) : Nat := (Trace.lines x.2).length

theorem Trace.printed_num {α : Type} (x : Res α × List Trace.Event) :
    Trace.printed x = Trace.num (fun | .call => false | .ty => false | .hex _ => true) x := by
  unfold printed num lines
  induction x.2 with
  | nil => rfl
  | cons e es ih =>
    cases e with
    | call => rw [List.filterMap_cons_none rfl, ih, List.countP_cons_of_neg (by simp)]
    | ty => rw [List.filterMap_cons_none rfl, ih, List.countP_cons_of_neg (by simp)]
    | hex r => rw [List.filterMap_cons_some (a := Event.hex r) (b := Line.hex r) rfl, List.length_cons, ih, List.countP_cons_of_pos rfl]

theorem hexPairs_printed {a b : Char} {v : Nat} (h : HexCode a b v) (ind n : Nat) (r : Str) :
    2 ^ n ≤ Trace.printed (Trace.expression ind (hexPairs a b n ++ r)) := by
  have hd : ∀ n r, ∃ c t, hexPairs a b n ++ r = c :: t ∧ (c = '\'' ∨ c = '(') := by
    intro n r
    cases n with
    | zero => exact ⟨_, _, rfl, .inl rfl⟩
    | succ n => exact ⟨_, _, rfl, .inr rfl⟩
  simp only [Trace.printed_num]
  induction n generalizing r with
  | zero =>
    refine Nat.le_trans ?_ (Trace.cost_term ind _)
    have h1 := (Trace.term_quote ind _).trans (Trace.hexChar_events a b ('\'' :: r))
    unfold Trace.term at h1
    unfold Trace.num
    rw [show hexPairs a b 0 ++ r = '\'' :: '\\' :: 'x' :: a :: b :: '\'' :: r from rfl, h1]
    exact Nat.le_refl _
  | succ n ih =>
    have e : hexPairs a b (n + 1) ++ r = '(' :: (hexPairs a b n ++ ',' :: c!"x)" ++ r) := by simp [hexPairs]
    rw [e, List.append_assoc, Nat.pow_succ, Nat.mul_comm]
    obtain ⟨c, t, h1, h2⟩ := hd n (',' :: c!"x)" ++ r)
    refine Nat.le_trans (Nat.mul_le_mul_left 2 (ih _)) (Nat.le_trans (Trace.cost_paren ?_ ?_ ?_) (Trace.cost_term ind _))
    · rw [variableP_paren, h1]; rcases h2 with rfl | rfl <;> rfl
    · unfold parens
      have hs : Stop ind (',' :: (c!"x)" ++ r)) :=
        (stop_whites (w := []) (x := ',') (by simp [Whites]) (by decide)).stop (Nat.zero_le _)
      have := expression_complete (hexPairs_src h ind n) hs
      rw [delimited_apply, char_cons, andThen_ok]
      exact (congrArg (fun x => Res.andThen x _) this).trans rfl
    · rw [h1]; rcases h2 with rfl | rfl <;> exact next_cons.2 rfl

/-- C46: one literal inside `n` pairs is valid, and its line is printed at least 2ⁿ times. -/
theorem C46_pairs {a b : Char} {v : Nat} (h : HexCode a b v) (ind n : Nat) :
    expression ind (hexPairs a b n) = .ok (hexPairsTree v n) [] ∧
    2 ^ n ≤ Trace.printed (Trace.expression ind (hexPairs a b n)) := by
  constructor
  · have := expression_complete (hexPairs_src h ind n) (stop_nil ind)
    rwa [List.append_nil] at this
  · have := hexPairs_printed h ind n []
    rwa [List.append_nil] at this

example : HexCode '4' '1' 65 := fromHex_iff.1 rfl
example : Trace.printed (Trace.expression 0 (hexPairs '4' '1' 2)) = 4 := rfl

/-! ### The output with these lines -/

namespace Trace

/-- A line other than a usage text, a list of names, or an error. -/
def Legible (l : Line) : Prop :=
  (∃ r, l = .hex r) ∨ (∃ sts, l = .msg (.tree sts)) ∨ ∃ p, l = .msg (.parsed p) ∨ l = .msg (.failed p)

/-- The first character of a line. -/
def first : Line → Option Char
  | .hex (some _) => some 'O'
  | .hex none => some 'E'
  | .msg (.tree _) => some '['
  | .msg (.parsed _) => some '"'
  | .msg (.failed _) => some '"'
  | _ => none

theorem head_first {st : Style} {e : Str} {l : Line} (h : Legible l) (r : Str) :
    (lineText st e l ++ r).head? = first l := by
  rcases h with ⟨o, rfl⟩ | ⟨sts, rfl⟩ | ⟨p, rfl | rfl⟩
  · cases o <;> rfl
  · simp only [lineText, msgText, render, first]
    split <;> rfl
  · rfl
  · rfl

theorem lineText_inj {st : Style} {e : Str} {x y : Line} {r r' : Str} (hx : Legible x) (hy : Legible y)
    (h : lineText st e x ++ r = lineText st e y ++ r') : x = y ∧ r = r' := by
  have hf : first x = first y := by rw [← head_first hx r, h, head_first hy]
  rcases hx with ⟨o, rfl⟩ | ⟨sts, rfl⟩ | ⟨p, rfl | rfl⟩ <;>
    rcases hy with ⟨o', rfl⟩ | ⟨sts', rfl⟩ | ⟨p', rfl | rfl⟩
  case inl.inl =>
    cases o with
    | none =>
      cases o' with
      | none => exact ⟨rfl, List.append_cancel_left h⟩
      | some n => cases hf
    | some n =>
      cases o' with
      | none => cases hf
      | some m =>
        simp only [lineText, List.append_assoc, List.cons_append, List.cons.injEq, List.nil_append, true_and] at h
        have hn : ∀ {t : Str}, NotNext isDigit (')' :: t) := fun {t} c u h => by cases h; rfl
        obtain ⟨e1, e2⟩ := span_unique (p := isDigit) (natText_digit n) (natText_digit m) hn hn h
        obtain rfl := natText_inj (by omega) (by omega) e1
        simp only [List.cons.injEq, true_and] at e2
        exact ⟨rfl, e2⟩
  case inr.inl.inr.inl =>
    obtain ⟨rfl, h'⟩ := msgText_tree (e := e) (e' := e) h
    exact ⟨rfl, h'⟩
  case inr.inr.inl.inr.inr.inl =>
    simp only [lineText, msgText, List.append_assoc] at h
    obtain ⟨rfl, h'⟩ := strText_inj h
    exact ⟨rfl, List.append_cancel_left h'⟩
  case inr.inr.inr.inr.inr.inr =>
    simp only [lineText, msgText, List.append_assoc] at h
    obtain ⟨rfl, h'⟩ := strText_inj h
    exact ⟨rfl, List.append_cancel_left h'⟩
  case inr.inr.inl.inr.inr.inr =>
    simp only [lineText, msgText, List.append_assoc] at h
    obtain ⟨rfl, h'⟩ := strText_inj h
    simp at h'
  case inr.inr.inr.inr.inr.inl =>
    simp only [lineText, msgText, List.append_assoc] at h
    obtain ⟨rfl, h'⟩ := strText_inj h
    simp at h'
  all_goals first
    | (cases o <;> cases hf)
    | (cases o' <;> cases hf)
    | cases hf

theorem lineText_ne (st : Style) (e : Str) (l : Line) : lineText st e l ≠ [] := by
  cases l with
  | hex o => cases o <;> simp [lineText]
  | msg m => exact msgText_ne st e m

end Trace

/-- C46: also with these lines the output tells what was printed: the lines, trees and reports, in order. -/
theorem C46_output {st : Style} {e : Str} {o o' : Trace.Output} (ho : ∀ l ∈ o.out, Trace.Legible l)
    (ho' : ∀ l ∈ o'.out, Trace.Legible l) (h : Trace.stdout st e o = Trace.stdout st e o') : o.out = o'.out :=
  flatMap_inj (Trace.lineText_ne st e) Trace.lineText_inj ho ho' h

/-- C46: for a file the lines come first, in the order in which the parser printed them, then the message. -/
theorem C46_order {read : Str → Read} {p s : Str} (quiet : Bool) (hr : read p = .contents s) :
    (∀ isDir walk, isDir p = some false → ∃ m, (dumpMain read isDir walk (some p) quiet).out = [m] ∧
      (Trace.dumpMain read isDir walk (some p) quiet).out = Trace.lines (Trace.file s).2 ++ [.msg m]) ∧
    ∀ prog more, ∃ m, (checkMain read (prog :: p :: more)).out = [m] ∧
      (Trace.checkMain read (prog :: p :: more)).out = Trace.lines (Trace.file s).2 ++ [.msg m] := by
  have h := Trace.er_file s
  constructor
  · intro isDir walk hi
    rcases C01_file_total s with e | ⟨sts, e⟩ <;> rw [e] at h <;> cases hf : Trace.file s with
    | mk x es =>
      rw [hf] at h
      cases h
      exact ⟨_, by simp only [dumpMain, hi, dumpFile, hr, e]; rfl, by simp only [Trace.dumpMain, hi, Trace.dumpFile, hr, hf]⟩
  · intro prog more
    rcases C01_file_total s with e | ⟨sts, e⟩ <;> rw [e] at h <;> cases hf : Trace.file s with
    | mk x es =>
      rw [hf] at h
      cases h
      exact ⟨_, by simp [checkMain, hr, e]; exact rfl, by
        simp [Trace.checkMain, hr, hf, show ¬ more.length + 1 + 1 < 2 by omega]⟩

/-- C46: in particular the dump of a file that parses determines its tree. -/
theorem C46_file {st : Style} {e : Str} {read read' : Str → Read} {isDir isDir' : Str → Option Bool}
    {walk walk' : Str → List (Option Entry)} {p p' s s' : Str} {sts sts' : List Statement}
    (hd : isDir p = some false) (hd' : isDir' p' = some false)
    (hr : read p = .contents s) (hr' : read' p' = .contents s')
    (hs : file s = .ok sts []) (hs' : file s' = .ok sts' [])
    (h : Trace.stdout st e (Trace.dumpMain read isDir walk (some p) false) =
      Trace.stdout st e (Trace.dumpMain read' isDir' walk' (some p') false)) : sts = sts' := by
  have key : ∀ {read : Str → Read} {isDir : Str → Option Bool} {walk : Str → List (Option Entry)} {p s : Str}
      {sts : List Statement}, isDir p = some false → read p = .contents s → file s = .ok sts [] →
      (Trace.dumpMain read isDir walk (some p) false).out = Trace.lines (Trace.file s).2 ++ [.msg (.tree sts)] := by
    intro read isDir walk p s sts hd hr hs
    have := Trace.er_file s
    rw [hs] at this
    cases hf : Trace.file s with
    | mk x es =>
      rw [hf] at this
      cases this
      simp [Trace.dumpMain, hd, Trace.dumpFile, hr, hf]
  have leg : ∀ (es : List Trace.Event) (sts : List Statement),
      ∀ l ∈ Trace.lines es ++ [.msg (.tree sts)], Trace.Legible l := by
    intro es sts l hl
    rcases List.mem_append.1 hl with hl | hl
    · obtain ⟨x, -, hx⟩ := List.mem_filterMap.1 hl
      cases x with
      | call => cases hx
      | ty => cases hx
      | hex r => cases hx; exact .inl ⟨r, rfl⟩
    · exact .inr (.inl ⟨sts, List.mem_singleton.1 hl⟩)
  have := C46_output (by rw [key hd hr hs]; exact leg _ _) (by rw [key hd' hr' hs']; exact leg _ _) h
  rw [key hd hr hs, key hd' hr' hs'] at this
  have := (List.append_inj' this rfl).2
  simpa using this

set_option maxRecDepth 20000 in
/-- The output of a dump with such a line. -/
example : Trace.stdout ⟨true, true, false, fun _ => false⟩ [] (Trace.dumpMain (fun _ => .contents c!"x = ('\\x41')\n")
    (fun _ => some false) (fun _ => []) (some c!"a.elm") true) = c!"Ok(65)\n\"a.elm\" parsed successfully\n" := rfl

/-- The trees are the same but the outputs are not: the converse of `C46_file` fails. -/
example : file c!"x = '\\x41'" = .ok [.Function (.mk none (.mk c!"x" [] (.Character 'A')))] [] ∧
    file c!"x = 'A'" = .ok [.Function (.mk none (.mk c!"x" [] (.Character 'A')))] [] := ⟨rfl, rfl⟩
example : Trace.lines (Trace.file c!"x = '\\x41'").2 = [.hex (some 65)] := rfl
example : Trace.lines (Trace.file c!"x = 'A'").2 = [] := C46_silent (by decide)
example : HexIn c!"x = '\\x41'" (some 65) := C46_lines (ind := 0) (.inr (.inr (.inr (.inr (by
  rw [show Trace.lines (Trace.file c!"x = '\\x41'").2 = [.hex (some 65)] from rfl]; simp)))))
example := C46_stdout (st := ⟨true, true, false, fun _ => false⟩) (e := []) (read := fun _ => .contents c!"x = 'A'")
  (by rintro p s ⟨⟩; decide)
example := C46_term_silent (ind := 0) (s := c!"\\y41'") (by
  rintro ⟨a, b, r, h⟩; simp at h)
example := C46_pairs (a := '4') (b := '1') (v := 65) (fromHex_iff.1 rfl) 0 3
example := C46_output (st := ⟨true, true, false, fun _ => false⟩) (e := []) (o := ⟨[.hex (some 65), .msg (.parsed c!"a")], .code 0⟩)
  (o' := ⟨[.hex (some 65), .msg (.parsed c!"a")], .code 1⟩) (by simp [Trace.Legible]) (by simp [Trace.Legible]) rfl
example := C46_order (read := fun _ => .contents c!"x = '\\x41'") (p := c!"a.elm") true rfl
example := C46_file (st := ⟨true, true, false, fun _ => false⟩) (e := []) (read := fun _ => .contents c!"x = '\\x41'")
  (read' := fun _ => .contents c!"x  = '\\x41'") (isDir := fun _ => some false) (isDir' := fun _ => some false) (walk := fun _ => [])
  (walk' := fun _ => []) (p := c!"a.elm") (p' := c!"b.elm") rfl rfl rfl rfl rfl rfl rfl

end ElmParser
