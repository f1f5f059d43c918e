import Verif.Spec.Topline
import Verif.Props.Header
import Verif.Props.Starts

/-! C79: a file is read declaration by declaration. -/
namespace ElmParser
open Spec

theorem topLine_head {y : Str} (h : TopLine y) : StmtHead y where
  head := h.head
  notOp := by
    rintro ⟨o, w, t, e, hw, rfl | ⟨hne, hop, -⟩⟩
    · exact h.notAs ⟨w, t, e, hw⟩
    · obtain ⟨x, u, e', hx⟩ := h.head
      cases o with
      | nil => exact hne rfl
      | cons a o =>
        rw [e] at e'
        cases e'
        have := hop x (by simp)
        revert hx this
        simp only [OpChar, List.mem_cons, List.not_mem_nil, or_false]
        rintro hx h
        rcases h with rfl | rfl | rfl | rfl | rfl | rfl | rfl | rfl | rfl | rfl | rfl | rfl | rfl | rfl | rfl | rfl | rfl | rfl | rfl | rfl <;>
          revert hx <;> decide

theorem StmtHead.white {y : Str} (h : StmtHead y) : Next (fun c => ¬ White c) y ∧ y ≠ [] := by
  obtain ⟨x, v, rfl, hx⟩ := h.head
  refine ⟨next_cons.2 ?_, by simp⟩
  rcases hx with hx | rfl | rfl | rfl
  · rintro (rfl | rfl | rfl | rfl) <;> revert hx <;> decide
  all_goals decide

/-- What can stand at the beginning of a line after a declaration. -/
structure Ready (y : Str) : Prop where
  white : Next (fun c => ¬ White c) y
  ne : y ≠ []
  stop : StmtStop ('\n' :: y)
  below : Below 1 ('\n' :: y)

theorem StmtHead.ready {y : Str} (h : StmtHead y) : Ready y where
  white := h.white.1
  ne := h.white.2
  stop := stmtStop_newline h
  below := by
    have := Below.line (n := 1) (ls := []) (last := ⟨0, none⟩) (t := y) (by simp) (fun _ h => (nomatch h)) (by decide)
      (.inl ⟨rfl, h.noGap, by
        rintro ⟨u, e⟩
        obtain ⟨x, v, e', hx⟩ := h.head
        rw [← e] at e'
        cases e'
        revert hx; decide⟩)
    simpa [gapText, Line.text, commentText, sp] using this

theorem below_comment {t y : Str} (ht : '\n' ∉ t) (h : Below 1 ('\n' :: y)) : Below 1 ('\n' :: (c!"--" ++ t ++ '\n' :: y)) := by
  have hl : (⟨0, some t⟩ : Line).ok := by rintro _ e; cases e; exact ht
  cases h with
  | @line ls last t' h1 h2 h3 h4 =>
    have := Below.line (n := 1) (ls := ⟨0, some t⟩ :: ls) (last := last) (t := t')
      (List.forall_mem_cons.2 ⟨⟨hl, Nat.one_pos⟩, h1⟩) h2 h3 h4
    simpa [gapText, Line.text, commentText, sp] using this

theorem HeadOk.ready {c y : Str} {k : Nat} (h : HeadOk c) (hy : Ready y) :
    Ready (c ++ '\n' :: (List.replicate k '\n' ++ y)) := by
  rcases h with ⟨t, rfl, ht⟩ | h
  · exact ⟨next_cons.2 (by decide), by simp,
      stmtStop_white (.inr (.inr (.inr rfl))) (stmtStop_line ht (next_cons.2 rfl) (stmtStop_blank k hy.stop)),
      below_comment ht (below_blank k hy.below)⟩
  · exact (h _).ready

/-- The declarations of a file, up to white space. -/
theorem file_white {s : Str} {xs : List Statement} (hs : Next (fun c => ¬ White c) s) :
    file s = .ok xs [] ↔ ∃ w, Whites w ∧ sepNonemptyList multispace statement s = .ok xs w := by
  unfold file statements
  rw [sepNonemptyList_multispace0]
  constructor
  · intro h
    obtain ⟨r, _, h, he⟩ := terminated_eq_ok.1 h
    obtain ⟨v, s1, v', s2, h1, h2, h3⟩ := delimited_eq_ok.1 h
    obtain ⟨e1, h4, h5⟩ := multispace0_iff.1 h1
    have hr : r = [] := by
      cases r with
      | nil => rfl
      | cons => cases he
    subst hr
    obtain ⟨e2, h6, -⟩ := multispace0_iff.1 h3
    rw [List.append_nil] at e2
    subst e2
    cases v with
    | nil => exact ⟨_, h6, by rw [e1]; exact h2⟩
    | cons a v =>
      rw [e1] at hs
      exact absurd (h4 a (by simp)) (next_cons.1 hs)
  · rintro ⟨w, hw, h⟩
    exact terminated_eq_ok.2 ⟨[], (), delimited_eq_ok.2 ⟨[], _, w, w, multispace0_iff.2 ⟨rfl, by simp, hs⟩, h,
      multispace0_iff.2 ⟨by simp, hw, next_nil _⟩⟩, rfl⟩

theorem whites_unique {v v' s s' : Str} (h1 : Whites v) (h2 : Next (fun c => ¬ White c) s) (h3 : Whites v')
    (h4 : Next (fun c => ¬ White c) s') (h : v ++ s = v' ++ s') : v = v' ∧ s = s' := by
  have e1 : multispace0 (v ++ s) = .ok v s := multispace0_iff.2 ⟨rfl, h1, h2⟩
  have e2 : multispace0 (v ++ s) = .ok v' s' := multispace0_iff.2 ⟨h, h3, h4⟩
  exact ok_inj e1 e2

/-- The first declaration and the rest of a file. -/
theorem file_step {c y : Str} {x : Statement} {k : Nat} (hc : HeadOk c) (hy : Ready y)
    (h : statement (c ++ '\n' :: (List.replicate k '\n' ++ y)) = .ok x ('\n' :: (List.replicate k '\n' ++ y)))
    (zs : List Statement) : file (c ++ '\n' :: (List.replicate k '\n' ++ y)) = .ok zs [] ↔
      ∃ ys, file y = .ok ys [] ∧ zs = x :: ys := by
  have hms : multispace ('\n' :: (List.replicate k '\n' ++ y)) = .ok ('\n' :: List.replicate k '\n') y := by
    refine multispace_iff.2 ⟨rfl, by simp, ?_, hy.white⟩
    intro a ha
    rcases List.mem_cons.1 ha with rfl | ha
    · decide
    · rw [List.eq_of_mem_replicate ha]; decide
  have hb : ∀ {x' : Statement} {r : Str}, preceded multispace statement ('\n' :: (List.replicate k '\n' ++ y)) = .ok x' r ↔
      statement y = .ok x' r := by
    intro x' r
    rw [preceded_apply, hms, andThen_ok]
  have hcw : Next (fun c => ¬ White c) (c ++ '\n' :: (List.replicate k '\n' ++ y)) := (hc.ready hy).white
  rw [file_white hcw]
  simp only [file_white hy.white, sepNonemptyList_iff cons_multispace cons_statement]
  constructor
  · rintro ⟨w, hw, v, vs, r1, rfl, h1, h2, h3⟩
    obtain ⟨rfl, rfl⟩ := ok_inj h h1
    cases h2 with
    | nil =>
      exfalso
      cases hy' : y with
      | nil => exact hy.ne hy'
      | cons a u =>
        have := hy.white
        rw [hy'] at this
        exact next_cons.1 this (hw a (by simp [hy']))
    | cons k1 k2 k3 => exact ⟨_, ⟨w, hw, _, _, _, rfl, hb.1 k1, k3, h3⟩, rfl⟩
  · rintro ⟨ys, ⟨w, hw, v, vs, r1, rfl, h1, h2, h3⟩, rfl⟩
    exact ⟨w, hw, x, v :: vs, _, rfl, h, run_cons (cons_preceded' cons_multispace cons_statement) (hb.2 h1) h2, h3⟩

theorem ahead_ready (ps : List (Statement × Str × Nat)) {y : Str} (h : ∀ p ∈ ps, statement p.2.1 = .ok p.1 []) (hy : TopLine y) :
    Ready (ahead (ps.map (·.2)) y) := by
  induction ps with
  | nil => exact (topLine_head hy).ready
  | cons q qs ih => exact (headOk (h q (by simp))).ready (ih fun q hq => h q (List.mem_cons_of_mem _ hq))

/-- **C79.** Behind declarations that alone are read as such, the rest of a file is read as it is read alone: it is a file
with these declarations and those of the rest if the rest is a file, and is refused if the rest is. -/
theorem C79_rest (ps : List (Statement × Str × Nat)) {y : Str}
    (h : ∀ p ∈ ps, statement p.2.1 = .ok p.1 [] ∧ (FlatStatement p.1 ∨ Laid p.2.1)) (hy : TopLine y)
    (zs : List Statement) :
    file (ahead (ps.map (·.2)) y) = .ok zs [] ↔ ∃ ys, file y = .ok ys [] ∧ zs = ps.map (·.1) ++ ys := by
  induction ps generalizing zs with
  | nil => simp [ahead]
  | cons p ps ih =>
    have hp := h p (by simp)
    have hr := ahead_ready ps (fun q hq => (h q (List.mem_cons_of_mem _ hq)).1) hy
    have := file_step (k := p.2.2) (headOk hp.1) hr (piece_below hp.1 hp.2 (next_cons.2 rfl) (stmtStop_blank _ hr.stop) (below_blank _ hr.below)) zs
    rw [List.map_cons, ahead, this]
    simp only [ih fun q hq => h q (List.mem_cons_of_mem _ hq), List.map_cons, List.cons_append]
    constructor
    · rintro ⟨ys, ⟨ys', h1, rfl⟩, rfl⟩; exact ⟨ys', h1, rfl⟩
    · rintro ⟨ys, h1, rfl⟩; exact ⟨_, ⟨ys, h1, rfl⟩, rfl⟩

/-- **C79.** In particular whatever makes the rest fail makes the file fail. -/
theorem C79_refused (ps : List (Statement × Str × Nat)) {y : Str}
    (h : ∀ p ∈ ps, statement p.2.1 = .ok p.1 [] ∧ (FlatStatement p.1 ∨ Laid p.2.1)) (hy : TopLine y) :
    file (ahead (ps.map (·.2)) y) = .err ↔ file y = .err := by
  have key := C79_rest ps h hy
  rcases C01_file_total y with e | ⟨ys, e⟩
  · refine ⟨fun _ => e, fun _ => ?_⟩
    rcases C01_file_total (ahead (ps.map (·.2)) y) with e' | ⟨zs, e'⟩
    · exact e'
    · obtain ⟨ys, h1, -⟩ := (key zs).1 e'
      rw [e] at h1; cases h1
  · rw [(key _).2 ⟨ys, e, rfl⟩, e]
    simp

/-- **C79.** A definition or a port whose body cannot be read, or is followed by something that does not begin a declaration, makes
a file fail, whatever follows on lines that are indented less than the body. -/
theorem C79_declaration {mk : Expr → Statement} {h g d b : Str} {i : Nat}
    (hh : DeclHeader mk h) (hi : ¬ c!"infix" <+: h) (hg : GapTxt 0 .GT i g) (hd : NoGap (d ++ b)) (hu : Shut d) (he : Ends d)
    (hb : Below i b)
    (hbad : expression i d = .err ∨ ∃ e v x w, expression i d = .ok e (v ++ x :: w) ∧ Whites v ∧ ¬ White x ∧ ¬ StartsStatement (x :: (w ++ b))) :
    file (h ++ g ++ d ++ b) = .err := by
  rcases C01_file_total (h ++ g ++ d ++ b) with e | ⟨xs, e⟩
  · exact e
  exfalso
  have hhd := declHeader_head hh (g ++ (d ++ b))
  simp only [List.append_assoc] at e
  obtain ⟨w, hw, h1⟩ := (file_white hhd.white.1).1 e
  obtain ⟨v, vs, r1, rfl, h2, h3, h4⟩ := (sepNonemptyList_iff cons_multispace cons_statement).1 h1
  obtain ⟨e', w', h6, -, rfl⟩ := (C78_declaration hh hi hg hd hu he hb v r1).1 (by simpa using h2)
  rcases hbad with hbad | ⟨e'', v', x, u, h7, h8, h9, h10⟩
  · rw [hbad] at h6; cases h6
  obtain ⟨-, rfl⟩ := ok_inj h7 h6
  simp only [List.append_assoc, List.cons_append] at h3
  cases h3 with
  | nil => exact h9 (hw x (by simp))
  | cons k1 _ _ =>
    obtain ⟨_, _, k2, k3⟩ := preceded_eq_ok.1 k1
    obtain ⟨e3, -, k4, k5⟩ := multispace_iff.1 k2
    obtain ⟨-, rfl⟩ := whites_unique h8 (next_cons.2 h9) k4 k5 e3
    exact h10 (C43_statement k3)

/-- **C79.** So one such declaration makes a file fail wherever it stands. -/
theorem C79_anywhere (ps : List (Statement × Str × Nat))
    (hps : ∀ p ∈ ps, statement p.2.1 = .ok p.1 [] ∧ (FlatStatement p.1 ∨ Laid p.2.1))
    {mk : Expr → Statement} {h g d b : Str} {i : Nat}
    (hh : DeclHeader mk h) (hi : ¬ c!"infix" <+: h) (hg : GapTxt 0 .GT i g) (hd : NoGap (d ++ b)) (hu : Shut d) (he : Ends d)
    (hb : Below i b)
    (hbad : expression i d = .err ∨ ∃ e v x w, expression i d = .ok e (v ++ x :: w) ∧ Whites v ∧ ¬ White x ∧ ¬ StartsStatement (x :: (w ++ b))) :
    file (ahead (ps.map (·.2)) (h ++ g ++ d ++ b)) = .err := by
  refine (C79_refused ps hps ?_).2 (C79_declaration hh hi hg hd hu he hb hbad)
  have := declHeader_head hh (g ++ (d ++ b))
  simp only [List.append_assoc]
  exact ⟨this.head, fun ⟨w, t, e, hw⟩ => this.notOp ⟨_, w, t, e, hw, .inl rfl⟩⟩

/-! ### Examples -/

/-- The declarations before. -/
def Header.exAhead : List (Statement × Str × Nat) :=
  [(.ImportStatement [c!"A"] none none, c!"import A", 2),
    (.Function Header.exF, c!"f : Int -> Int\nf x =\n    case x of\n        0 -> 1\n        _ -> 2", 0),
    (.Comment c!" next", c!"-- next", 1)]
set_option maxRecDepth 20000 in
theorem Header.exAhead_ok : ∀ p ∈ Header.exAhead, statement p.2.1 = .ok p.1 [] ∧ (FlatStatement p.1 ∨ Laid p.2.1) := by
  intro q hq
  simp only [Header.exAhead, List.mem_cons, List.not_mem_nil, or_false] at hq
  rcases hq with rfl | rfl | rfl
  · exact ⟨rfl, .inl trivial⟩
  · exact ⟨rfl, .inr Header.ex_laid⟩
  · exact ⟨rfl, .inl trivial⟩

/-- A rest that is a file, in a layout of its own. -/
example : file (c!"import A\n\n\nf : Int -> Int\nf x =\n    case x of\n        0 -> 1\n        _ -> 2\n-- next\n\n" ++ c!"g = h  \n\n ") =
    .ok [.ImportStatement [c!"A"] none none, .Function Header.exF, .Comment c!" next",
      .Function (.mk none (.mk c!"g" [] (.Variable [c!"h"])))] [] :=
  (C79_rest Header.exAhead (y := c!"g = h  \n\n ") Header.exAhead_ok ⟨⟨_, _, rfl, .inl (by decide)⟩, by rintro ⟨w, t, e, -⟩; cases e⟩ _).2
    ⟨[.Function (.mk none (.mk c!"g" [] (.Variable [c!"h"])))], rfl, rfl⟩
/-- A rest that is not. -/
example : file (c!"import A\n\n\nf : Int -> Int\nf x =\n    case x of\n        0 -> 1\n        _ -> 2\n-- next\n\n" ++ c!"g h") = .err :=
  (C79_refused Header.exAhead (y := c!"g h") Header.exAhead_ok ⟨⟨_, _, rfl, .inl (by decide)⟩, by rintro ⟨w, t, e, -⟩; cases e⟩).2 rfl

theorem Header.ex_below : Below 4 c!"\n\n\n-- next\ng = 1" :=
  (rows_below (cs := [(2, c!"-- next"), (0, c!"g = 1")]) (by
    intro c hc
    simp only [List.mem_cons, List.not_mem_nil, or_false] at hc
    rcases hc with rfl | rfl
    · exact headOk (x := .Comment c!" next") rfl
    · exact headOk (x := .Function (.mk none (.mk c!"g" [] (.Integer c!"1")))) rfl)).mono (by decide)

/-- A conditional without `else`, before other declarations and behind some. -/
example : file (c!"main =" ++ c!"\n    " ++ c!"if a then b" ++ c!"\n\n\n-- next\ng = 1") = .err :=
  C79_declaration (.fn Header.ex_plain) (by decide) Header.ex_gap ⟨next_cons.2 (by decide), by simp⟩ (Sh.ex_plain (by decide))
    (Of.ex_ends (v := c!"if a the") rfl (by decide) (by decide)) Header.ex_below (.inl rfl)
example := C79_anywhere Header.exAhead Header.exAhead_ok (d := c!"if a then b") (.fn Header.ex_plain) (by decide) Header.ex_gap ⟨next_cons.2 (by decide), by simp⟩
  (Sh.ex_plain (by decide)) (Of.ex_ends (v := c!"if a the") rfl (by decide) (by decide)) Header.ex_below (.inl rfl)
/-- The same in a port. -/
example : file (c!"port send a =" ++ c!"\n    " ++ c!"if a then b" ++ c!"\n\n\n-- next\ng = 1") = .err :=
  C79_declaration Header.ex_port (by decide) Header.ex_gap ⟨next_cons.2 (by decide), by simp⟩ (Sh.ex_plain (by decide))
    (Of.ex_ends (v := c!"if a the") rfl (by decide) (by decide)) Header.ex_below (.inl rfl)
/-- A second `=`. -/
example : file (c!"main =" ++ c!"\n    " ++ c!"a = b c" ++ c!"\n\n\n-- next\ng = 1") = .err :=
  C79_declaration (.fn Header.ex_plain) (by decide) Header.ex_gap ⟨next_cons.2 (by decide), by simp⟩ (Sh.ex_plain (by decide))
    (Of.ex_ends (v := c!"a = ") rfl (by decide) (by decide)) Header.ex_below
    (.inr ⟨.Variable [c!"a"], c!" ", '=', c!" b c", rfl, fun c hc => by rcases List.mem_singleton.1 hc; decide, by decide, by
      intro h; cases h with | lower h => revert h; decide⟩)

end ElmParser
