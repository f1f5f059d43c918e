import Verif.Props.Additive
import Verif.Props.Culprit

/-! C87: what follows the first bad definition costs no work. -/
namespace ElmParser
open Spec

/-- A definition with its body on a new line, right or wrong, in the text of which nothing is left open, and which does not end in
white space, with an operator symbol or with `as`. -/
def Def (c : Str) : Prop := (∃ sg n as h g d i, Header sg n as h ∧ ¬ c!"infix" <+: h ∧ GapTxt 0 .GT i g ∧ 0 < i ∧ d ≠ [] ∧ NoGap d ∧
  Shut d ∧ Spec.Ends d ∧ c = h ++ g ++ d) ∧ Shut c ∧ Spec.Ends c

theorem Def.chunk {c : Str} (h : Def c) : Chunk c := by
  obtain ⟨⟨sg, n, as, h, g, d, i, h1, h2, h3, h4, h5, h6, h7, h8, rfl⟩, -⟩ := h
  exact .decl (.fn h1) h2 h3 h4 h5 h6 h7 h8

namespace Trace.Two
local infixr:20 " </> " => Trace.alt

theorem alt_free {p : TP α} {q : Parser α} {s : Str} : ((p </> free q) s).2 = (p s).2 := by
  show (alt p (free q) s).2 = _
  unfold alt free
  cases p s with
  | mk x es => cases x <;> simp

theorem alt_free2 {p : TP α} {q q' : Parser α} {s : Str} : ((p </> (free q </> free q')) s).2 = (p s).2 := by
  show (alt p (alt (free q) (free q')) s).2 = _
  unfold alt free
  cases p s with
  | mk x es => cases x <;> cases q s <;> simp

theorem header_events {sg : Option FunctionSignature} {n : Name} {as : List Expr} {h g z : Str} (hh : Header sg n as h) :
    (statement (h ++ (g ++ z))).2 = (function 0 (h ++ (g ++ z))).2 := by
  have nd : NotDecl (h ++ (g ++ z)) := header_notDecl hh
  have hq : ∀ k ∈ keywords, ∀ v u, tag k (h ++ (g ++ z)) = .ok v u → NoGap u := by
    obtain ⟨n, m, t, hm, e, ht, -⟩ := header_name hh (g ++ z)
    rw [e]
    cases hm with
    | op ho =>
      intro k hk v u e
      rw [List.append_assoc, List.append_assoc, List.singleton_append] at e
      exfalso
      revert e
      have : ∀ k ∈ keywords, k.head? ≠ none ∧ k.head? ≠ some '(' := by decide
      have hk := this k hk
      cases k with
      | nil => exact absurd rfl hk.1
      | cons y k =>
        intro e
        rw [List.singleton_append, tag_cons_ne (fun h => hk.2 (by rw [h]; rfl))] at e
        cases e
    | lo hl => exact fun k hk v u h => keyword_name hk hl ht h
  rw [statement_late nd.portModule nd.effectModule nd.module_ nd.import_, late, alt_quiet (typeAlias_quiet (hq _ (by decide))),
    alt_quiet (type_quiet (hq _ (by decide))), alt_quiet (portType_quiet (hq _ (by decide))), alt_quiet (port_quiet (hq _ (by decide))),
    alt_free2, pmap_events]

/-- The work for a definition, right or wrong. -/
theorem def_events {c b : Str} (h : Def c) (hb : Next (· = '\n') b) (hB : Below 1 b) : (statement (c ++ b)).2 = (statement c).2 := by
  obtain ⟨⟨sg, n, as, h, g, d, i, h1, h2, h3, h4, h5, h6, h7, h8, rfl⟩, h9, h10⟩ := h
  simp only [List.append_assoc] at h9 h10 ⊢
  rw [header_events h1, header_events h1, function_events h3 h6 (noGap_edge h6 h5 hb) h7 h8 h4 hB h1 ⟨h9, h10⟩]

/-- What does not begin a declaration takes no work. -/
theorem rubbish_events {y : Char} {t : Str} (hy : ¬ StartsStatement (y :: t)) : (statement (y :: t)).2 = [] := by
  have hl : ¬ Lower y := fun h => hy (.lower h)
  have hu : y ≠ '_' := fun h => hy (h ▸ .underscore)
  have hp : y ≠ '(' := fun h => hy (h ▸ .paren)
  have ne : ∀ k : Char, Lower k → k ≠ y := fun k hk e => hl (e ▸ hk)
  have ht : ∀ k ∈ [c!"port", c!"type"], tag k (y :: t) = .err := by
    intro k hk
    rcases List.mem_cons.1 hk with rfl | hk
    · exact tag_cons_ne (ne 'p' (by decide)).symm
    · rcases List.mem_singleton.1 hk
      exact tag_cons_ne (ne 't' (by decide)).symm
  have nd : NotDecl (y :: t) := notDecl_head (by
    intro h
    simp only [List.mem_cons, List.not_mem_nil, or_false] at h
    rcases h with rfl | rfl | rfl | rfl | rfl <;> exact hl (by decide))
  have hf : functionNameOrOp (y :: t) = .err := by
    unfold functionNameOrOp
    rw [ElmParser.alt_apply, loName_err_head hl hu, orElse_err, delimited_apply]
    exact congrArg (Res.andThen · _) (char_cons_ne _ hp)
  have hp : pmap (function 0) Statement.Function (y :: t) = (.err, []) := by
    show andThen (function 0 (y :: t)) _ = _
    rw [function_quiet hf]; rfl
  rw [statement_late nd.portModule nd.effectModule nd.module_ nd.import_, late, alt_quiet (typeAlias_quiet (tag_no2 (ht _ (by simp)))),
    alt_quiet (type_quiet (tag_no2 (ht _ (by simp)))), alt_quiet (portType_quiet (tag_no2 (ht _ (by simp)))),
    alt_quiet (port_quiet (tag_no2 (ht _ (by simp)))), alt_quiet hp]
  unfold alt free
  cases infixDeclaration (y :: t) <;> rfl

/-- Only `sepNonemptyList` takes work. -/
theorem file_list {s : Str} (h : Next (fun c => ¬ White c) s) : (file s).2 = (sepNonemptyList (free multispace0) statement s).2 := by
  have e : (statements s).2 = (sepNonemptyList (free multispace0) statement s).2 := by
    show ((free multispace0 >>= fun _ => sepNonemptyList (free multispace0) statement >>= fun v => free multispace0 >>= fun _ => pure v) s).2 = _
    rw [free_ok (multispace0_iff.2 ⟨rfl, by simp, h⟩ : multispace0 s = .ok [] s)]
    show (andThen (sepNonemptyList (free multispace0) statement s) _).2 = _
    cases sepNonemptyList (free multispace0) statement s with
    | mk x es =>
      cases x with
      | ok v r =>
        show es ++ (andThen (multispace0 r, []) _).2 = es
        cases multispace0 r <;> simp [andThen] <;> rfl
      | _ => rfl
  rw [← e]
  show (andThen (statements s) _).2 = _
  cases statements s with
  | mk x es =>
    cases x with
    | ok v r =>
      show es ++ (andThen (eof r, []) _).2 = es
      cases eof r <;> simp [andThen] <;> rfl
    | _ => rfl

theorem list_ok {s r : Str} {x : Statement} {es : List Event} (h : statement s = (.ok x r, es)) :
    (sepNonemptyList (free multispace0) statement s).2 = es ++ (sepLoop (free multispace0) statement (r.length + 1) r).2 := by
  have hlt := lt_of_ok cons_statement ((er_statement _).symm.trans (congrArg Prod.fst h))
  unfold sepNonemptyList
  rw [h]
  simp only [andThen]
  rw [if_neg (Nat.ne_of_lt hlt), bind_pure_events]
theorem list_err {s : Str} {es : List Event} (h : statement s = (.err, es)) :
    (sepNonemptyList (free multispace0) statement s).2 = es := by
  unfold sepNonemptyList
  rw [h]; rfl

theorem loop_ok {n : Nat} {w t r : Str} {x : Statement} {es : List Event} (hw : Whites w) (hne : w ≠ []) (ht : Next (fun c => ¬ White c) t)
    (h : statement t = (.ok x r, es)) :
    (sepLoop (free multispace0) statement (n + 1) (w ++ t)).2 = es ++ (sepLoop (free multispace0) statement n r).2 := by
  have hlt := lt_of_ok cons_statement ((er_statement _).symm.trans (congrArg Prod.fst h))
  have hl : w.length ≠ 0 := fun e => hne (List.length_eq_zero_iff.1 e)
  rw [sepLoop_step n (multispace0_iff.2 ⟨rfl, hw, ht⟩) (by rw [List.length_append]; omega) h (Nat.ne_of_lt hlt)]
  show es ++ _ = _
  rw [bind_pure_events]
theorem loop_err {n : Nat} {w t : Str} {es : List Event} (hw : Whites w) (ht : Next (fun c => ¬ White c) t)
    (h : statement t = (.err, es)) (hne : w ≠ [] ∨ es = []) : (sepLoop (free multispace0) statement (n + 1) (w ++ t)).2 = es := by
  have hm : multispace0 (w ++ t) = .ok w t := multispace0_iff.2 ⟨rfl, hw, ht⟩
  simp only [sepLoop, free, hm]
  split
  · rename_i hl
    rcases hne with hne | hne
    · exact absurd (List.length_eq_zero_iff.1 (by rw [List.length_append] at hl; omega)) hne
    · exact hne.symm
  · rw [h]; rfl

theorem of_pair {x : Res α} {es : List Event} {y : Res α × List Event} (h1 : y.1 = x) (h2 : y.2 = es) : y = (x, es) := by
  subst h1; subst h2; rfl

/-- A bad definition in the first place of the rest of the file, and in a later one. -/
theorem bad_events {c : Str} (h : Def c) (hs : Sole c) (he : ElmParser.file c = .err) {qs : List (Nat × Str)} (hq : ∀ d ∈ qs, HeadOk d.2) :
    (sepNonemptyList (free multispace0) statement (c ++ rows qs)).2 = (statement c).2 ∧
    ∀ k n, (rows ((k, c) :: qs)).length < n → (sepLoop (free multispace0) statement n (rows ((k, c) :: qs))).2 = (statement c).2 := by
  have hev := def_events h (rows_edge qs) (rows_below hq)
  have hp : Piece c := .inl ⟨h.chunk, hs⟩
  have hw := headOk_white (piece_headOk hp) (rows qs)
  have er : ∀ k, rows ((k, c) :: qs) = ('\n' :: List.replicate k '\n') ++ (c ++ rows qs) := fun k => by simp [rows]
  have h' := h
  rcases Culprit.bad hp he with ⟨-, h2⟩ | ⟨x, v, y, w, -, h2, h3, h4, h5⟩
  · have e := of_pair ((er_statement _).trans (h2 _ (rows_edge qs) (rows_stop hq) (rows_below hq))) hev
    refine ⟨list_err e, fun k n hn => ?_⟩
    cases n with
    | zero => cases hn
    | succ n => rw [er]; exact loop_err (Culprit.whites_lines k) hw e (.inl (by simp))
  · have e0 := h5 _ (rows_edge qs) (rows_stop hq) (rows_below hq)
    have e := of_pair ((er_statement _).trans e0) hev
    have hn' : Next (fun c => ¬ White c) (y :: (w ++ rows qs)) := next_cons.2 h3
    have quiet : statement (y :: (w ++ rows qs)) = (.err, []) := by
      refine of_pair ((er_statement _).trans (h4 _ (rows_edge qs))) (rubbish_events ?_)
      have e1 := (C82_alone h.chunk (rows_edge qs) (rows_stop hq) (rows_below hq) x _).1 e0
      obtain ⟨w', e1, e2⟩ := e1
      have e3 : w' = v ++ y :: w := by
        have : (v ++ y :: w) ++ rows qs = w' ++ rows qs := by simpa using e2
        exact (List.append_cancel_right this).symm
      subst e3
      rcases hs x _ e1 with e4 | ⟨v', y', w', e4, k1, k2, k3⟩
      · simp at e4
      · obtain ⟨-, e5⟩ := whites_unique h2 (next_cons.2 h3) k1 (next_cons.2 k2) e4
        cases e5
        exact startsStatement_edge (rows_edge qs) k3
    have rest : ∀ n, (sepLoop (free multispace0) statement (n + 1) (v ++ y :: (w ++ rows qs))).2 = [] := fun n =>
      loop_err h2 hn' quiet (.inr rfl)
    refine ⟨by rw [list_ok e, rest, List.append_nil], fun k n hn => ?_⟩
    have hlt := lt_of_ok cons_statement e0
    rw [er] at hn
    simp only [List.length_append, List.length_cons, List.length_replicate] at hn hlt
    obtain ⟨n, rfl⟩ : ∃ m, n = m + 2 := ⟨n - 2, by omega⟩
    rw [er, loop_ok (Culprit.whites_lines k) (by simp) hw e, rest, List.append_nil]

end Trace.Two

/-- **C87.** If declarations that are right are followed by a definition that is not, the parser does on the file, in order, what it
does on each of them alone and then what it does on that definition alone, whatever declarations follow: they are not looked at. -/
theorem C87_events (p c : Str) (k : Nat) (ps qs : List (Nat × Str)) (h : ∀ d ∈ p :: ps.map (·.2), Own d)
    (hc : Def c) (hs : Sole c) (he : file c = .err) (hq : ∀ d ∈ qs, HeadOk d.2) :
    (Trace.file (p ++ rows (ps ++ (k, c) :: qs))).2 = (p :: ps.map (·.2)).flatMap (fun d => (Trace.file d).2) ++ (Trace.file c).2 := by
  have hpc : Piece c := .inl ⟨hc.chunk, hs⟩
  have hz : ∀ d ∈ (k, c) :: qs, HeadOk d.2 := fun d hd => by
    rcases List.mem_cons.1 hd with rfl | hd
    · exact piece_headOk hpc
    · exact hq d hd
  have alone : (Trace.file c).2 = (Trace.statement c).2 := by
    have := (Trace.Two.bad_events hc hs he (qs := []) (by simp)).1
    have hw := Trace.Two.headOk_white (piece_headOk hpc) []
    simp only [rows, List.append_nil] at this hw
    rw [Trace.Two.file_list hw, this]
  have loop : ∀ (ps : List (Nat × Str)) (n : Nat), (∀ d ∈ ps, Own d.2) → (rows (ps ++ (k, c) :: qs)).length < n →
      (Trace.sepLoop (Trace.free multispace0) Trace.statement n (rows (ps ++ (k, c) :: qs))).2 =
        ps.flatMap (fun d => (Trace.file d.2).2) ++ (Trace.file c).2 := by
    intro ps
    induction ps with
    | nil =>
      intro n _ hn
      rw [alone]
      exact (Trace.Two.bad_events hc hs he hq).2 k n hn
    | cons d ps ih =>
      obtain ⟨m, d⟩ := d
      intro n hps hn
      have hd := Trace.Two.own_events (hps (m, d) (by simp))
      have hok : ∀ x ∈ ps ++ (k, c) :: qs, HeadOk x.2 := fun x hx => by
        rcases List.mem_append.1 hx with hx | hx
        · exact (Trace.Two.own_events (hps x (List.mem_cons_of_mem _ hx))).1
        · exact hz x hx
      have e := hd.2 _ hok
      have er : rows ((m, d) :: ps ++ (k, c) :: qs) = ('\n' :: List.replicate m '\n') ++ (d ++ rows (ps ++ (k, c) :: qs)) := by simp [rows]
      rw [er] at hn ⊢
      simp only [List.length_append, List.length_cons] at hn
      obtain ⟨n, rfl⟩ : ∃ j, n = j + 1 := ⟨n - 1, by omega⟩
      rw [Trace.Two.loop_ok (Culprit.whites_lines m) (by simp) (Trace.Two.headOk_white hd.1 _) e,
        ih n (fun x hx => hps x (List.mem_cons_of_mem _ hx)) (by omega), List.flatMap_cons, List.append_assoc,
        Trace.Two.own_file (hps (m, d) (by simp))]
  have hps : ∀ d ∈ ps, Own d.2 := fun d hd => h d.2 (List.mem_cons_of_mem _ (List.mem_map_of_mem hd))
  have hp := Trace.Two.own_events (h p (by simp))
  have e := hp.2 (ps ++ (k, c) :: qs) fun x hx => by
    rcases List.mem_append.1 hx with hx | hx
    · exact (Trace.Two.own_events (hps x hx)).1
    · exact hz x hx
  rw [Trace.Two.file_list (Trace.Two.headOk_white hp.1 _), Trace.Two.list_ok e, loop ps _ hps (Nat.lt_succ_self _), List.flatMap_cons,
    Trace.Two.own_file (h p (by simp)), List.append_assoc, List.flatMap_map]

/-- **C87.** The same if the bad definition is the first of the file. -/
theorem C87_first (c : Str) (qs : List (Nat × Str)) (hc : Def c) (hs : Sole c) (he : file c = .err) (hq : ∀ d ∈ qs, HeadOk d.2) :
    (Trace.file (c ++ rows qs)).2 = (Trace.file c).2 := by
  have hpc : Piece c := .inl ⟨hc.chunk, hs⟩
  have one : ∀ qs : List (Nat × Str), (∀ d ∈ qs, HeadOk d.2) → (Trace.file (c ++ rows qs)).2 = (Trace.statement c).2 := fun qs hq => by
    rw [Trace.Two.file_list (Trace.Two.headOk_white (piece_headOk hpc) _), (Trace.Two.bad_events hc hs he hq).1]
  have := one [] (by simp)
  simp only [rows, List.append_nil] at this
  rw [one qs hq, this]

/-- **C87.** So the number of calls is the sum of those up to the first bad definition. -/
theorem C87_calls (p c : Str) (k : Nat) (ps qs : List (Nat × Str)) (h : ∀ d ∈ p :: ps.map (·.2), Own d)
    (hc : Def c) (hs : Sole c) (he : file c = .err) (hq : ∀ d ∈ qs, HeadOk d.2) :
    Trace.calls (Trace.file (p ++ rows (ps ++ (k, c) :: qs))) =
      ((p :: ps.map (·.2)).map fun d => Trace.calls (Trace.file d)).sum + Trace.calls (Trace.file c) := by
  have e := C87_events p c k ps qs h hc hs he hq
  have e1 := Trace.Two.num_flatMap (· == .call) (p :: ps.map (·.2)) Trace.file (Trace.file c).1
  unfold Trace.calls
  rw [← e1]
  unfold Trace.num
  rw [e, List.countP_append]

/-- **C87.** So the work does not depend on what follows the first bad definition. -/
theorem C87_after (p c : Str) (k : Nat) (ps qs qs' : List (Nat × Str)) (h : ∀ d ∈ p :: ps.map (·.2), Own d)
    (hc : Def c) (hs : Sole c) (he : file c = .err) (hq : ∀ d ∈ qs, HeadOk d.2) (hq' : ∀ d ∈ qs', HeadOk d.2) :
    (Trace.file (p ++ rows (ps ++ (k, c) :: qs))).2 = (Trace.file (p ++ rows (ps ++ (k, c) :: qs'))).2 :=
  (C87_events p c k ps qs h hc hs he hq).trans (C87_events p c k ps qs' h hc hs he hq').symm

/-- **C87.** The checker prints what it prints for the declarations, before the names, then what it prints for the bad definition,
before the report, and then one report. -/
theorem C87_check {read : Str → Read} {prog f : Str} (more : List Str) (p c : Str) (k : Nat) (ps qs : List (Nat × Str))
    (h : ∀ d ∈ p :: ps.map (·.2), Own d) (hc : Def c) (hs : Sole c) (he : file c = .err) (hq : ∀ d ∈ qs, HeadOk d.2)
    (hr : read f = .contents (p ++ rows (ps ++ (k, c) :: qs))) :
    (Trace.checkMain read (prog :: f :: more)).out.dropLast =
      (p :: ps.map (·.2) ++ [c]).flatMap fun d => (Trace.checkMain (fun _ => .contents d) [prog, f]).out.dropLast := by
  rw [Trace.Two.check_lines more hr, C87_events p c k ps qs h hc hs he hq]
  generalize p :: ps.map (·.2) = cs
  induction cs with
  | nil => simp [Trace.Two.check_lines (read := fun _ => .contents c) (s := c) [] rfl]
  | cons d cs ih =>
    rw [List.flatMap_cons, List.cons_append, List.flatMap_cons, Trace.Two.check_lines (read := fun _ => .contents d) [] rfl, ← ih]
    simp only [Trace.lines, List.filterMap_append, List.append_assoc]

/-! ### Examples -/

/-- A definition without `else`, of which nothing is read, and one with a comma too many, of which something is left over. -/
theorem Wasted.ex_if : Def c!"main =\n    if a then b" :=
  ⟨⟨_, _, _, c!"main =", c!"\n    ", c!"if a then b", _, Header.ex_plain, by decide, Header.ex_gap, by decide, by simp,
    ⟨next_cons.2 (by decide), by simp⟩, Sh.ex_plain (by decide), Of.ex_ends (v := c!"if a the") rfl (by decide) (by decide), rfl⟩,
    Sh.ex_plain (by decide), Of.ex_ends (v := c!"main =\n    if a the") rfl (by decide) (by decide)⟩
@[inherit_doc Wasted.ex_if] theorem Wasted.ex_comma : Def c!"main =\n    a + b, c" :=
  ⟨⟨_, _, _, c!"main =", c!"\n    ", c!"a + b, c", _, Header.ex_plain, by decide, Header.ex_gap, by decide, by simp,
    ⟨next_cons.2 (by decide), by simp⟩, Sh.ex_plain (by decide), Of.ex_ends (v := c!"a + b") rfl (by decide) (by decide), rfl⟩,
    Sh.ex_plain (by decide), Of.ex_ends (v := c!"main =\n    a + b") rfl (by decide) (by decide)⟩
theorem Wasted.ex_sole : Sole c!"main =\n    a + b, c" := fun x r h => .inr (by
  cases h
  exact ⟨[], ',', c!" c", rfl, fun _ h => (List.not_mem_nil h).elim, by decide, by intro h; cases h with | lower h => revert h; decide⟩)
theorem Wasted.ex_own : ∀ d ∈ c!"import A exposing (..)" :: [(1, c!"main =\n    '\\x41'")].map (·.2), Own d := by
  intro d hd
  simp only [List.map_cons, List.map_nil, List.mem_cons, List.not_mem_nil, or_false] at hd
  rcases hd with rfl | rfl
  · exact Additive.ex_import
  · exact Additive.ex_main
/-- A definition with any number of brackets. -/
theorem Wasted.ex_deep (n : Nat) : ∀ d ∈ [(2, c!"g = " ++ List.replicate n '(')], HeadOk d.2 := by
  intro d hd
  rcases List.mem_singleton.1 hd
  exact .inr fun t => stmtHead_word (x := 'g') (by decide) (by decide)

example (n : Nat) := C87_events c!"import A exposing (..)" c!"main =\n    if a then b" 0 [(1, c!"main =\n    '\\x41'")] _ Wasted.ex_own
  Wasted.ex_if (fun x r h => by cases h) rfl (Wasted.ex_deep n)
/-- Four calls, however many brackets follow, although alone these take exponentially many. -/
example (n : Nat) : Trace.calls (Trace.file (c!"import A exposing (..)" ++ rows ([(1, c!"main =\n    '\\x41'")] ++
    (0, c!"main =\n    if a then b") :: [(2, c!"g = " ++ List.replicate n '(')]))) = 4 :=
  (C87_calls _ _ _ _ _ Wasted.ex_own Wasted.ex_if (fun x r h => by cases h) rfl (Wasted.ex_deep n)).trans rfl
example (n : Nat) : Trace.calls (Trace.file (c!"import A exposing (..)" ++ rows ([(1, c!"main =\n    '\\x41'")] ++
    (0, c!"main =\n    a + b, c") :: [(2, c!"g = " ++ List.replicate n '(')]))) = 3 :=
  (C87_calls _ _ _ _ _ Wasted.ex_own Wasted.ex_comma Wasted.ex_sole rfl (Wasted.ex_deep n)).trans rfl
example (n : Nat) : (Trace.file (c!"main =\n    a + b, c" ++ rows [(2, c!"g = " ++ List.replicate n '(')])).2 = [.call, .call] :=
  (C87_first _ _ Wasted.ex_comma Wasted.ex_sole rfl (Wasted.ex_deep n)).trans rfl
example (m n : Nat) := C87_after c!"import A exposing (..)" c!"main =\n    if a then b" 0 [(1, c!"main =\n    '\\x41'")] _ _ Wasted.ex_own
  Wasted.ex_if (fun x r h => by cases h) rfl (Wasted.ex_deep m) (Wasted.ex_deep n)
/-- The one line is that of the character. -/
example (n : Nat) : (Trace.checkMain (fun _ => .contents (c!"import A exposing (..)" ++ rows ([(1, c!"main =\n    '\\x41'")] ++
    (0, c!"main =\n    if a then b") :: [(2, c!"g = " ++ List.replicate n '(')]))) [c!"check", c!"a.elm"]).out.dropLast = [.hex (some 65)] :=
  (C87_check [] _ _ _ _ _ Wasted.ex_own Wasted.ex_if (fun x r h => by cases h) rfl (Wasted.ex_deep n) rfl).trans rfl

end ElmParser
