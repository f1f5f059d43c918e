import Verif.Proofs.TraceFile

/-! C85: a file takes the work of its declarations, one after the other. -/
namespace ElmParser
open Spec

/-- A declaration that is read alone: the header of a module, an import, a comment, or any other declaration in the usual layout,
in the text of which nothing is left open, and which does not end in white space, with an operator symbol or with `as`. -/
def Own (c : Str) : Prop := ∃ x, statement c = .ok x [] ∧ (Trace.Two.Plain x ∨ (Chunk c ∧ Shut c ∧ Spec.Ends c))

namespace Trace.Two

/-- The declaration that is read. -/
def ownValue (c : Str) : Statement :=
  match ElmParser.statement c with
  | .ok x _ => x
  | _ => .Comment []

theorem own_events {c : Str} (h : Own c) : HeadOk c ∧ ∀ cs : List (Nat × Str), (∀ c ∈ cs, HeadOk c.2) →
    statement (c ++ rows cs) = (.ok (ownValue c) (rows cs), (statement c).2) := by
  obtain ⟨x, hx, h⟩ := h
  refine ⟨headOk hx, fun cs hcs => ?_⟩
  have e : ownValue c = x := by unfold ownValue; rw [hx]
  have hf : FlatStatement x ∨ Laid c := by
    rcases h with h | ⟨h, -⟩
    · left; cases x <;> first | trivial | exact absurd h id
    · exact chunk_flat h hx
  have hv := piece_below hx hf (rows_edge cs) (rows_stop hcs) (rows_below hcs)
  refine Prod.ext ((er_statement _).trans (by rw [hv, e])) ?_
  rcases h with h | ⟨h1, h2, h3⟩
  · rw [plain_events hx h]
    exact plain_events hv h
  · exact chunk_events h1 ⟨h2, h3⟩ hx (rows_edge cs) (rows_stop hcs) (rows_below hcs)

theorem own_file {c : Str} (h : Own c) : (file c).2 = (statement c).2 := by
  have := file_events (x := ownValue) (ev := fun c => (statement c).2) c [] (by
    intro d hd
    rcases List.mem_singleton.1 hd
    exact own_events h)
  simpa [rows] using this

theorem num_flatMap {α β : Type} (m : Event → Bool) (cs : List Str) (f : Str → Res α × List Event) (x : Res β) :
    num m (x, cs.flatMap fun c => (f c).2) = (cs.map fun c => num m (f c)).sum := by
  unfold num
  induction cs with
  | nil => rfl
  | cons c cs ih => simpa using ih

end Trace.Two

/-- **C85.** The parser does on a file in the usual layout, in order, what it does on each of the declarations alone: it makes the same
calls, those of abandoned attempts too, and prints the same lines. -/
theorem C85_events (p : Str) (ps : List (Nat × Str)) (h : ∀ c ∈ p :: ps.map (·.2), Own c) :
    (Trace.file (p ++ rows ps)).2 = (p :: ps.map (·.2)).flatMap fun c => (Trace.file c).2 := by
  rw [Trace.Two.file_events (x := Trace.Two.ownValue) p ps fun c hc => Trace.Two.own_events (h c hc)]
  generalize p :: ps.map (·.2) = cs at h
  induction cs with
  | nil => rfl
  | cons c cs ih =>
    rw [List.flatMap_cons, List.flatMap_cons, Trace.Two.own_file (h c (by simp)), ih fun d hd => h d (List.mem_cons_of_mem _ hd)]

/-- **C85.** So the number of calls is the sum of those for the declarations. -/
theorem C85_calls (p : Str) (ps : List (Nat × Str)) (h : ∀ c ∈ p :: ps.map (·.2), Own c) :
    Trace.calls (Trace.file (p ++ rows ps)) = ((p :: ps.map (·.2)).map fun c => Trace.calls (Trace.file c)).sum ∧
    Trace.types (Trace.file (p ++ rows ps)) = ((p :: ps.map (·.2)).map fun c => Trace.types (Trace.file c)).sum := by
  unfold Trace.calls Trace.types
  rw [← Trace.Two.num_flatMap _ _ _ (Trace.file (p ++ rows ps)).1, ← Trace.Two.num_flatMap _ _ _ (Trace.file (p ++ rows ps)).1,
    ← C85_events p ps h]
  exact ⟨rfl, rfl⟩

/-- **C85.** It depends neither on the order of the declarations nor on the blank lines between them. -/
theorem C85_order (p q : Str) (ps qs : List (Nat × Str)) (h : ∀ c ∈ p :: ps.map (·.2), Own c)
    (hp : (p :: ps.map (·.2)).Perm (q :: qs.map (·.2))) :
    Trace.calls (Trace.file (p ++ rows ps)) = Trace.calls (Trace.file (q ++ rows qs)) ∧
    Trace.types (Trace.file (p ++ rows ps)) = Trace.types (Trace.file (q ++ rows qs)) := by
  have h1 := C85_calls p ps h
  have h2 := C85_calls q qs fun c hc => h c (hp.mem_iff.2 hc)
  rw [h1.1, h1.2, h2.1, h2.2]
  exact ⟨(hp.map _).sum_nat, (hp.map _).sum_nat⟩

/-- **C85.** A declaration more adds its own calls, wherever it is put, and however long the file is. -/
theorem C85_insert (p c : Str) (k : Nat) (ps qs : List (Nat × Str)) (h : ∀ d ∈ p :: (ps ++ (k, c) :: qs).map (·.2), Own d) :
    Trace.calls (Trace.file (p ++ rows (ps ++ (k, c) :: qs))) = Trace.calls (Trace.file (p ++ rows (ps ++ qs))) + Trace.calls (Trace.file c) := by
  rw [(C85_calls p _ h).1, (C85_calls p (ps ++ qs) ?_).1]
  · simp only [List.map_cons, List.map_append, List.sum_cons, List.sum_append]
    omega
  · intro d hd
    refine h d ?_
    simp only [List.map_append, List.map_cons, List.mem_cons, List.mem_append] at hd ⊢
    rcases hd with h | h | h
    · exact .inl h
    · exact .inr (.inl h)
    · exact .inr (.inr (.inr h))

theorem rows_length (cs : List (Nat × Str)) : ((cs.map (·.2)).map fun c => c.length + 1).sum ≤ (rows cs).length := by
  induction cs with
  | nil => exact Nat.le_refl _
  | cons c cs ih =>
    obtain ⟨k, c⟩ := c
    simp only [List.map_cons, List.sum_cons, rows, List.length_cons, List.length_append] at ih ⊢
    omega

theorem rows_infix {c : Str} {k : Nat} {cs : List (Nat × Str)} (h : (k, c) ∈ cs) : c <:+: rows cs := by
  induction cs with
  | nil => cases h
  | cons d cs ih =>
    obtain ⟨k', d⟩ := d
    rcases List.mem_cons.1 h with e | h
    · cases e
      exact ⟨'\n' :: List.replicate k '\n', rows cs, by simp [rows]⟩
    · obtain ⟨a, z, e⟩ := ih h
      exact ⟨'\n' :: (List.replicate k' '\n' ++ (d ++ a)), z, by simp [rows, ← e]⟩

theorem straight_infix {c s : Str} (hs : Straight s) (h : c <:+: s) : Straight c where
  paren := fun hc => hs.paren (h.subset hc)
  let_ := fun hc => hs.let_ (hc.trans h)
  case := fun hc => hs.case (hc.trans h)

/-- **C85.** So without parentheses, `let` and `case` such a file takes at most one call per character and one more, whereas for a
file in any other layout only a quadratic bound is known. -/
theorem C85_linear (p : Str) (ps : List (Nat × Str)) (h : ∀ c ∈ p :: ps.map (·.2), Own c) (hs : Straight (p ++ rows ps)) :
    Trace.calls (Trace.file (p ++ rows ps)) ≤ (p ++ rows ps).length + 1 := by
  have one : ∀ c, Own c → c <:+: p ++ rows ps → Trace.calls (Trace.file c) ≤ c.length + 1 := by
    intro c hc hi
    have := Trace.calls_statement (straight_infix hs hi)
    unfold Trace.calls Trace.num at this ⊢
    rw [Trace.Two.own_file hc]
    exact this
  have all : ∀ cs : List (Nat × Str), (∀ c ∈ cs, c ∈ ps) →
      ((cs.map (·.2)).map fun c => Trace.calls (Trace.file c)).sum ≤ ((cs.map (·.2)).map fun c => c.length + 1).sum := by
    intro cs
    induction cs with
    | nil => exact fun _ => Nat.le_refl _
    | cons c cs ih =>
      intro hc
      have h1 := one c.2 (h c.2 (List.mem_cons_of_mem _ (List.mem_map_of_mem (hc c (by simp)))))
        ((rows_infix (k := c.1) (hc c (by simp))).trans (List.suffix_append p _).isInfix)
      have h2 := ih fun d hd => hc d (List.mem_cons_of_mem _ hd)
      simp only [List.map_cons, List.sum_cons]
      omega
  have h1 := one p (h p (by simp)) (List.prefix_append p _).isInfix
  have h2 := all ps fun _ h => h
  have h3 := rows_length ps
  rw [(C85_calls p ps h).1, List.length_append]
  simp only [List.map_cons, List.sum_cons]
  omega

theorem Trace.Two.check_lines {read : Str → Read} {prog f s : Str} (more : List Str) (hr : read f = .contents s) :
    (Trace.checkMain read (prog :: f :: more)).out.dropLast = Trace.lines (Trace.file s).2 := by
  have e : (prog :: f :: more)[1]? = some f := rfl
  unfold Trace.checkMain
  rw [if_neg (by simp), e]
  simp only [hr]
  have ht := C01_file_total s
  rw [← Trace.er_file s] at ht
  cases h : Trace.file s with
  | mk x es =>
    rw [h] at ht
    rcases ht with ht | ⟨v, ht⟩
    · cases ht; simp
    · cases ht; simp

/-- **C85.** What the checker prints for such a file before the names is what it prints for each declaration before its names. -/
theorem C85_check {read : Str → Read} {prog f : Str} (more : List Str) (p : Str) (ps : List (Nat × Str))
    (h : ∀ c ∈ p :: ps.map (·.2), Own c) (hr : read f = .contents (p ++ rows ps)) :
    (Trace.checkMain read (prog :: f :: more)).out.dropLast =
      (p :: ps.map (·.2)).flatMap fun c => (Trace.checkMain (fun _ => .contents c) [prog, f]).out.dropLast := by
  rw [Trace.Two.check_lines more hr, C85_events p ps h]
  generalize p :: ps.map (·.2) = cs
  induction cs with
  | nil => rfl
  | cons c cs ih =>
    rw [List.flatMap_cons, List.flatMap_cons, Trace.Two.check_lines (read := fun _ => .contents c) [] rfl, ← ih]
    simp only [Trace.lines, List.filterMap_append]

/-! ### Examples -/

/-- An import, a comment, a port, a custom type and a type alias. -/
theorem Additive.ex_import : Own c!"import A exposing (..)" := ⟨_, rfl, .inl trivial⟩
@[inherit_doc Additive.ex_import] theorem Additive.ex_comment : Own c!"-- next" := ⟨_, rfl, .inl trivial⟩
@[inherit_doc Additive.ex_import] theorem Additive.ex_port : Own c!"port p : Int -> Int" :=
  ⟨_, rfl, .inr ⟨.type_ (h := c!"port p : ") (d := c!"Int -> Int") TypeHeader.ex_port (by simp) ⟨next_cons.2 (by decide), by simp⟩
    (Sh.ex_plain (by decide)) (Of.ex_ends (v := c!"Int -> ") rfl (by decide) (by decide)), Sh.ex_plain (by decide),
    Of.ex_ends (v := c!"port p : Int -> ") rfl (by decide) (by decide)⟩⟩
@[inherit_doc Additive.ex_import] theorem Additive.ex_custom : Own c!"type A\n    = B Int\n    | C c" :=
  ⟨_, rfl, .inr ⟨.custom (h := c!"type A\n    = ") (d := c!"B Int\n    | C c") TypeHeader.ex_custom (by simp)
    ⟨next_cons.2 (by decide), by simp⟩ (Sh.ex_plain (by decide)) (Of.ex_ends (v := c!"B Int\n    | ") rfl (by decide) (by decide)),
    Sh.ex_plain (by decide), Of.ex_ends (v := c!"type A\n    = B Int\n    | ") rfl (by decide) (by decide)⟩⟩
@[inherit_doc Additive.ex_import] theorem Additive.ex_alias : Own c!"type alias A =\n    Maybe\n    Int" :=
  ⟨_, rfl, .inr ⟨.type_ (h := c!"type alias A =\n    ") (d := c!"Maybe\n    Int") TypeHeader.ex_alias (by simp)
    ⟨next_cons.2 (by decide), by simp⟩ (Sh.ex_plain (by decide)) (Of.ex_ends (v := c!"Maybe\n    ") rfl (by decide) (by decide)),
    Sh.ex_plain (by decide), Of.ex_ends (v := c!"type alias A =\n    Maybe\n    ") rfl (by decide) (by decide)⟩⟩

set_option maxRecDepth 20000 in
/-- A definition with a signature. -/
theorem Additive.ex_signed : Own c!"f : Int -> Int\nf x =\n    case x of\n        0 -> 1\n        _ -> 2" :=
  ⟨.Function Header.exF, rfl, .inr ⟨.decl (h := c!"f : Int -> Int\nf x =") (g := c!"\n    ") (d := c!"case x of\n        0 -> 1\n        _ -> 2")
    (.fn Header.ex_signed) (by decide) Header.ex_gap (by decide) (by simp) ⟨next_cons.2 (by decide), by simp⟩ (Sh.ex_plain (by decide))
    (Of.ex_ends (v := c!"case x of\n        0 -> 1\n        _ -") rfl (by decide) (by decide)), Sh.ex_plain (by decide),
    Of.ex_ends (v := c!"f : Int -> Int\nf x =\n    case x of\n        0 -> 1\n        _ -") rfl (by decide) (by decide)⟩⟩

/-- A definition with a printed character. -/
theorem Additive.ex_main : Own c!"main =\n    '\\x41'" := by
  have hc : ∀ {w : Str}, Shut w → Shut (c!"'\\x41'" ++ w) := fun h =>
    .character (w := c!"\\x41") (c := 'A') (.inr ⟨'4', '1', 65, rfl, fromHex_iff.1 rfl, rfl⟩) h
  refine ⟨.Function (.mk none (.mk c!"main" [] (.Character 'A'))), rfl, .inr ⟨.decl (h := c!"main =") (g := c!"\n    ") (d := c!"'\\x41'")
    (.fn Header.ex_plain) (by decide) Header.ex_gap (by decide) (by simp) ⟨next_cons.2 (by decide), by simp⟩ (hc .nil)
    (Of.ex_ends (v := c!"'\\x") rfl (by decide) (by decide)), ?_, Of.ex_ends (v := c!"main =\n    '\\x") rfl (by decide) (by decide)⟩⟩
  exact Sh.plain_shut (w := c!"main =\n    ") (by decide) (hc .nil) (next_cons.2 (by decide))

/-- The declarations of the file. -/
abbrev Additive.exRows : List (Nat × Str) :=
  [(2, c!"port p : Int -> Int"), (0, c!"-- next"), (1, c!"type A\n    = B Int\n    | C c"), (0, c!"type alias A =\n    Maybe\n    Int"),
    (2, c!"f : Int -> Int\nf x =\n    case x of\n        0 -> 1\n        _ -> 2"), (1, c!"main =\n    '\\x41'")]
theorem Additive.ex_all : ∀ c ∈ c!"import A exposing (..)" :: exRows.map (·.2), Own c := by
  intro c hc
  simp only [List.map_cons, List.map_nil, List.mem_cons, List.not_mem_nil, or_false] at hc
  rcases hc with rfl | rfl | rfl | rfl | rfl | rfl | rfl
  · exact ex_import
  · exact ex_port
  · exact ex_comment
  · exact ex_custom
  · exact ex_alias
  · exact ex_signed
  · exact ex_main

example := C85_events _ _ Additive.ex_all
set_option maxRecDepth 20000 in
/-- The counts of the declarations. -/
example : Trace.calls (Trace.file (c!"import A exposing (..)" ++ rows Additive.exRows)) = 0 + (0 + (0 + (0 + (0 + (6 + (1 + 0)))))) :=
  (C85_calls _ _ Additive.ex_all).1.trans rfl
example : Trace.calls (Trace.file (c!"-- next" ++ rows [(0, c!"main =\n    '\\x41'"), (7, c!"import A exposing (..)")])) =
    Trace.calls (Trace.file (c!"import A exposing (..)" ++ rows [(1, c!"-- next"), (0, c!"main =\n    '\\x41'")])) :=
  (C85_order _ _ _ _ (by
    intro c hc
    simp only [List.map_cons, List.map_nil, List.mem_cons, List.not_mem_nil, or_false] at hc
    rcases hc with rfl | rfl | rfl
    · exact Additive.ex_comment
    · exact Additive.ex_main
    · exact Additive.ex_import) (by decide)).1
example := C85_insert _ _ _ [(2, c!"port p : Int -> Int"), (0, c!"-- next")] _ Additive.ex_all
example := C85_linear c!"-- next" [(0, c!"main =\n    '\\x41'")] (by
    intro c hc
    simp only [List.map_cons, List.map_nil, List.mem_cons, List.not_mem_nil, or_false] at hc
    rcases hc with rfl | rfl
    · exact Additive.ex_comment
    · exact Additive.ex_main)
  { paren := by decide, let_ := not_infix (c := 'l') (by decide) (by decide), case := not_infix (c := 'c') (by decide) (by decide) }
set_option maxRecDepth 20000 in
/-- The one line is that of the character. -/
example : (Trace.checkMain (fun _ => .contents (c!"import A exposing (..)" ++ rows Additive.exRows)) [c!"check", c!"a.elm"]).out.dropLast =
    [.hex (some 65)] :=
  (C85_check [] _ _ Additive.ex_all rfl).trans rfl

/-- Pieces that are no declarations on their own need not add up. -/
example : Trace.calls (Trace.file c!"f = a +\n[b]") = 3 ∧ Trace.calls (Trace.file c!"f = a +") = 1 ∧ Trace.calls (Trace.file c!"[b]") = 0 :=
  ⟨rfl, rfl, rfl⟩

end ElmParser
