import Verif.Proofs.Header
import Verif.Props.Offside
import Verif.Props.Pieces
import Verif.Props.Munch

/-! C78: definitions whose body starts on a new line. -/
namespace ElmParser
open Spec

/-- **C78.** After its header a definition is read exactly if an expression is read, with the column the body starts in
as indentation, and what is left is what the expression leaves. -/
theorem C78_body {sg : Option FunctionSignature} {n : Name} {as : List Expr} {h g s : Str} {i : Nat} (hh : Header sg n as h)
    (hg : GapTxt 0 .GT i g) (hs : NoGap s) (f : Function) (r : Str) :
    function 0 (h ++ g ++ s) = .ok f r ↔ ∃ e, expression i s = .ok e r ∧ f = .mk sg (.mk n as e) := by
  rw [List.append_assoc, header_function hh hg hs]
  cases expression i s with
  | ok e r' =>
    simp only [andThen_ok, Res.ok.injEq]
    constructor
    · rintro ⟨rfl, rfl⟩; exact ⟨e, ⟨rfl, rfl⟩, rfl⟩
    · rintro ⟨e', ⟨rfl, rfl⟩, rfl⟩; exact ⟨rfl, rfl⟩
  | _ => exact ⟨nofun, fun ⟨_, h, _⟩ => nomatch h⟩

/-- **C78.** Conversely a definition whose arguments have no `let` and `case` inside starts with a header. -/
theorem C78_header {s r : Str} {sg : Option FunctionSignature} {n : Name} {as : List Expr} {e : Expr}
    (h : function 0 s = .ok (.mk sg (.mk n as e)) r) (ha : ∀ a ∈ as, Flat a) :
    ∃ t g d i, Header sg n as t ∧ GapTxt 0 .GT i g ∧ NoGap d ∧ s = t ++ g ++ d ∧ expression i d = .ok e r := by
  have plain : ∀ {s r : Str}, functionDefinitionF expression 0 s = .ok (.mk n as e) r →
      ∃ t g d i, Header none n as t ∧ GapTxt 0 .GT i g ∧ NoGap d ∧ s = t ++ g ++ d ∧ expression i d = .ok e r := by
    intro s r h
    unfold functionDefinitionF at h
    simp only [bind_eq_ok, pure_eq_ok] at h
    obtain ⟨n', s1, k1, as', s2, k2, w, s3, k3, _, s4, k4, i, s5, k5, b, s6, k6, h, e6⟩ := h
    cases h
    subst e6
    obtain ⟨m, rfl, hm⟩ := functionNameOrOp_sound k1
    obtain ⟨cs, rfl, hcs⟩ := fargs_sound eSound_expression (many0_steps k2)
    obtain ⟨rfl, hw, hw', -⟩ := spaces_iff.1 k3
    obtain ⟨-, rfl⟩ := char_eq_ok.1 k4
    obtain ⟨c, rfl, hc⟩ := eSound_expression k6
    obtain ⟨hn, g, rfl, hg⟩ := gapTxt_of_ok k5 (src_ne_nil hc trivial _)
    exact ⟨m ++ cs ++ w ++ c!"=", g, c ++ s6, i, .plain hm (src_flat hcs.any ha) ⟨hw, hw'⟩, hg, hn, by simp, k6⟩
  change functionF expression 0 s = _ at h
  unfold functionF at h
  simp only [bind_eq_ok, pure_eq_ok] at h
  obtain ⟨o, s1, k1, d, s2, k2, h, rfl⟩ := h
  cases h
  obtain ⟨t, g, d, i, h1, h2, h3, rfl, h4⟩ := plain k2
  rcases opt_eq_ok.1 k1 with ⟨sg, k3, rfl⟩ | ⟨-, rfl, rfl⟩
  · obtain ⟨s3, i', k4, k5⟩ := terminated_eq_ok.1 k3
    obtain ⟨-, k, rfl, hk, -⟩ := newLineAndSameIndent_iff.1 k5
    obtain ⟨m, w, i'', g', t', rfl, hm, hw, hg, ht⟩ := functionSignature_sound k4
    exact ⟨_, g, d, i, .signed hm hw hg ht hk h1, h2, h3, by simp, h4⟩
  · exact ⟨t, g, d, i, h1, h2, h3, rfl, h4⟩

/-- **C78.** Such a definition ends, whatever its body, where a line is indented less than the body: lines there are not
looked at. -/
theorem C78_definition {sg : Option FunctionSignature} {n : Name} {as : List Expr} {h g d b : Str} {i : Nat}
    (hh : Header sg n as h) (hg : GapTxt 0 .GT i g) (hd : NoGap (d ++ b)) (hu : Shut d) (he : Ends d) (hb : Below i b)
    (f : Function) (r : Str) :
    function 0 (h ++ g ++ d ++ b) = .ok f r ↔ ∃ e w, expression i d = .ok e w ∧ f = .mk sg (.mk n as e) ∧ r = w ++ b := by
  rw [List.append_assoc, C78_body hh hg hd]
  simp only [C76_expression hu he hb]
  constructor
  · rintro ⟨e, ⟨w, h1, h2⟩, h3⟩; exact ⟨e, w, h1, h3, h2⟩
  · rintro ⟨e, w, h1, h3, h2⟩; exact ⟨e, ⟨w, h1, h2⟩, h3⟩

/-- **C78.** It is the same with a port: after its header it is read exactly if an expression is read. -/
theorem C78_port {n : Name} {as : List Name} {w1 cs w2 g s : Str} {i : Nat} (h1 : SpacesTxt w1) (hn : LoName n) (ha : PortArgs as cs)
    (h2 : SpacesTxt w2) (hg : GapTxt 0 .GT i g) (hs : NoGap s) (x : Statement) (r : Str) :
    portDeclaration (c!"port" ++ w1 ++ n ++ cs ++ w2 ++ c!"=" ++ g ++ s) = .ok x r ↔
      ∃ e, expression i s = .ok e r ∧ x = .PortDeclaration n as e := by
  have := port_header h1 hn ha h2 hg hs
  simp only [List.append_assoc, List.cons_append, List.nil_append] at this ⊢
  rw [this]
  cases expression i s with
  | ok e r' =>
    simp only [andThen_ok, Res.ok.injEq]
    constructor
    · rintro ⟨rfl, rfl⟩; exact ⟨e, ⟨rfl, rfl⟩, rfl⟩
    · rintro ⟨e', ⟨rfl, rfl⟩, rfl⟩; exact ⟨rfl, rfl⟩
  | _ => exact ⟨nofun, fun ⟨_, h, _⟩ => nomatch h⟩

/-- **C78.** Conversely every port with a body starts with a header. -/
theorem C78_port_header {s r : Str} {x : Statement} (h : portDeclaration s = .ok x r) :
    ∃ n as e w1 cs w2 g d i, x = .PortDeclaration n as e ∧ SpacesTxt w1 ∧ LoName n ∧ PortArgs as cs ∧ SpacesTxt w2 ∧ GapTxt 0 .GT i g ∧
      NoGap d ∧ s = c!"port" ++ w1 ++ n ++ cs ++ w2 ++ c!"=" ++ g ++ d ∧ expression i d = .ok e r := by
  unfold portDeclaration at h
  simp only [bind_eq_ok, pure_eq_ok] at h
  obtain ⟨_, s1, k1, w, s2, k2, n, s3, k3, as, s4, k4, w2, s5, k5, _, s6, k6, i, s7, k7, e, s8, k8, rfl, rfl⟩ := h
  obtain ⟨c, rfl, hc⟩ := eSound_expression k8
  obtain ⟨hd, g, rfl, hg⟩ := gapTxt_of_ok k7 (src_ne_nil hc trivial _)
  obtain ⟨-, rfl⟩ := char_eq_ok.1 k6
  obtain ⟨rfl, hw2⟩ := spaces_sound k5
  obtain ⟨cs, rfl, hcs⟩ := portArgs_sound (many0_steps k4)
  obtain ⟨rfl, hn⟩ := loName_sound k3
  obtain ⟨rfl, hw⟩ := spaces_sound k2
  obtain ⟨-, rfl⟩ := tag_eq_ok.1 k1
  exact ⟨n, as, e, w, cs, w2, g, c ++ s8, i, rfl, hw, hn, hcs, hw2, hg, hd,
    by simp only [List.append_assoc, List.cons_append, List.nil_append], k8⟩

/-- **C78.** Read as a declaration, with a header of either kind, the text is this definition or this port, and ends where
a line is indented less than the body. -/
theorem C78_declaration {mk : Expr → Statement} {h g d b : Str} {i : Nat}
    (hh : DeclHeader mk h) (hi : ¬ c!"infix" <+: h) (hg : GapTxt 0 .GT i g) (hd : NoGap (d ++ b)) (hu : Shut d) (he : Ends d) (hb : Below i b)
    (x : Statement) (r : Str) :
    statement (h ++ g ++ d ++ b) = .ok x r ↔ ∃ e w, expression i d = .ok e w ∧ x = mk e ∧ r = w ++ b := by
  simp only [List.append_assoc]
  rw [declHeader_statement hh hg hd x r (.inr hi)]
  simp only [C76_expression hu he hb]
  constructor
  · rintro ⟨e, ⟨w, h1, h2⟩, h3⟩; exact ⟨e, w, h1, h3, h2⟩
  · rintro ⟨e, w, h1, h3, h2⟩; exact ⟨e, ⟨w, h1, h2⟩, h3⟩

/-- A declaration that is read alone, before lines that are not indented. -/
theorem laid_below {x : Statement} {c b : Str} (h : statement c = .ok x []) (hx : ¬ FlatStatement x) (hl : Laid c) (hb : Below 1 b) :
    statement (c ++ b) = .ok x b := by
  have hx : ¬ ∃ a v n, x = .InfixDeclaration a v n := by
    rintro ⟨a, v, n, rfl⟩; exact hx trivial
  obtain ⟨mk, t, g, i, d, h1, h2, h3, rfl, h4, h5, h6⟩ := hl
  rw [List.append_assoc] at h
  obtain ⟨e, h7, rfl⟩ := (declHeader_statement h1 h2 h4 _ _ (.inl hx)).1 h
  have hd : NoGap (d ++ b) := by
    obtain ⟨c, rfl, hc⟩ := eSound_expression h7
    rw [List.append_nil]
    exact (src_starts hc trivial).noGap
  simp only [List.append_assoc]
  exact (declHeader_statement h1 h2 hd _ _ (.inl hx)).2 ⟨e, (C76_expression h5 h6 (hb.mono h3) _ _).2 ⟨[], h7, rfl⟩, rfl⟩

/-- A declaration that is read alone, before white space and the beginning of a declaration. -/
theorem piece_below {x : Statement} {c b : Str} (h : statement c = .ok x []) (hp : FlatStatement x ∨ Laid c) (hn : Next (· = '\n') b)
    (hf : StmtStop b) (hb : Below 1 b) : statement (c ++ b) = .ok x b := by
  by_cases hx : FlatStatement x
  · obtain ⟨c, e, hc⟩ := statement_text h hx
    rw [List.append_nil] at e
    subst e
    rcases hc with hc | ⟨t, rfl, ht, rfl⟩
    · refine statement_complete hc ⟨hf, Next.imp hn fun c h => by subst h; decide, ?_⟩
      cases b with
      | nil => exact hf
      | cons y b => cases next_cons.1 hn; exact hf
    · exact statement_line ht hn
  · exact laid_below h hx (hp.resolve_left hx) hb

/-- **C78.** Declarations in the usual layout, whatever their bodies (with `let` and `case` too), and any declarations
without `let` and `case`, that alone are read as such, can be put together in any order, each on a new line, with any number
of blank lines in between: the file has these declarations. -/
theorem C78_join (p : Statement × Str) (ps : List (Nat × Statement × Str))
    (h : ∀ q ∈ p :: ps.map (·.2), statement q.2 = .ok q.1 [] ∧ (FlatStatement q.1 ∨ Laid q.2)) :
    file (p.2 ++ rows (ps.map fun q => (q.1, q.2.2))) = .ok (p.1 :: ps.map (·.2.1)) [] :=
  file_rows fun q hq => ⟨headOk (h q hq).1, fun cs hcs =>
    piece_below (h q hq).1 (h q hq).2 (rows_edge cs) (rows_stop hcs) (rows_below hcs)⟩

/-! ### Examples -/

theorem Header.ex_name {n : Name} (h : functionNameOrOp n = .ok n []) : FnName n n := by
  obtain ⟨m, e, h⟩ := functionNameOrOp_sound h
  rw [List.append_nil] at e
  rwa [← e] at h

/-- A signature, and a name with an argument on the next line. -/
theorem Header.ex_signed : Header (some ⟨c!"f", .TypeApplication (.TypeConstructor [c!"Int"] []) (.TypeConstructor [c!"Int"] [])⟩)
    c!"f" [.Variable [c!"x"]] c!"f : Int -> Int\nf x =" := by
  have sp1 : SpacesTxt c!" " := ⟨by simp, by simp⟩
  obtain ⟨c, e, ht⟩ := typeAnnotation_sound (ind := 0) (s := c!"Int -> Int") (r := [])
    (t := .TypeApplication (.TypeConstructor [c!"Int"] []) (.TypeConstructor [c!"Int"] [])) rfl
  rw [List.append_nil] at e
  subst e
  have hx : VarText [c!"x"] c!"x" := .lo (by cases Header.ex_name (n := c!"x") rfl; assumption)
  exact .signed (k := 0) (Header.ex_name rfl) sp1 (gapTxt_spaces 0 .GT sp1) ht rfl
    (.plain (Header.ex_name rfl) (.fargs sp1 (.var hx) .fargs0) sp1)

/-- A name without arguments. -/
theorem Header.ex_plain : Header none c!"main" [] c!"main =" :=
  .plain (Header.ex_name rfl) .fargs0 (w := c!" ") ⟨by simp, by simp⟩

theorem Header.ex_gap : GapTxt 0 .GT 4 c!"\n    " :=
  ⟨[⟨0, none⟩], 4, rfl, by simp, by simp [Line.ok], .inr ⟨by simp, rfl, by simp [Rel]⟩⟩

theorem Header.ex_laid : Laid c!"f : Int -> Int\nf x =\n    case x of\n        0 -> 1\n        _ -> 2" :=
  ⟨_, c!"f : Int -> Int\nf x =", c!"\n    ", 4, c!"case x of\n        0 -> 1\n        _ -> 2", .fn Header.ex_signed, Header.ex_gap,
    by decide, rfl, ⟨next_cons.2 (by decide), by simp⟩, Sh.ex_plain (by decide),
    Of.ex_ends (v := c!"case x of\n        0 -> 1\n        _ -") rfl (by decide) (by decide)⟩

theorem Header.ex_laid' : Laid c!"main =\n    let\n        a = 1\n    in f a" :=
  ⟨_, c!"main =", c!"\n    ", 4, c!"let\n        a = 1\n    in f a", .fn Header.ex_plain, Header.ex_gap,
    by decide, rfl, ⟨next_cons.2 (by decide), by simp⟩, Sh.ex_plain (by decide),
    Of.ex_ends (v := c!"let\n        a = 1\n    in ") rfl (by decide) (by decide)⟩

example := C78_body Header.ex_signed Header.ex_gap (s := c!"case x of\n        0 -> 1\n        _ -> 2") ⟨next_cons.2 (by decide), by simp⟩
example := C78_definition (d := c!"let\n        a = 1\n    in f a") (b := c!"\n\n\n-- next\ng = 1") Header.ex_plain Header.ex_gap
  ⟨next_cons.2 (by decide), by simp⟩ (Sh.ex_plain (by decide))
  (Of.ex_ends (v := c!"let\n        a = 1\n    in ") rfl (by decide) (by decide))
  ((rows_below (cs := [(2, c!"-- next"), (0, c!"g = 1")]) (by
    intro c hc
    simp only [List.mem_cons, List.not_mem_nil, or_false] at hc
    rcases hc with rfl | rfl
    · exact headOk (x := .Comment c!" next") rfl
    · exact headOk (x := .Function (.mk none (.mk c!"g" [] (.Integer c!"1")))) rfl)).mono (by decide))
example := C78_header (s := c!"main =\n    let\n        a = 1\n    in f a\nx") (r := c!"\nx") rfl (by simp)

/-- A port with an argument. -/
theorem Header.ex_port : DeclHeader (fun e => .PortDeclaration c!"send" [c!"a"] e) c!"port send a =" := by
  have sp1 : SpacesTxt c!" " := ⟨by simp, by simp⟩
  have lo : ∀ {n : Name}, loName n = .ok n [] → LoName n := fun h => (loName_sound h).2
  exact .port (w1 := c!" ") (n := c!"send") (cs := c!" a") (w2 := c!" ") sp1 (lo rfl) (.cons (w := c!" ") sp1 (lo rfl) .nil) sp1

theorem Header.ex_port_laid : Laid c!"port send a =\n    case a of\n        _ -> a" :=
  ⟨_, c!"port send a =", c!"\n    ", 4, c!"case a of\n        _ -> a", Header.ex_port, Header.ex_gap,
    by decide, rfl, ⟨next_cons.2 (by decide), by simp⟩, Sh.ex_plain (by decide),
    Of.ex_ends (v := c!"case a of\n        _ -") rfl (by decide) (by decide)⟩

example := C78_declaration (d := c!"case a of\n        _ -> a") (b := c!"\ng = 1") Header.ex_port (by decide) Header.ex_gap
  ⟨next_cons.2 (by decide), by simp⟩ (Sh.ex_plain (by decide))
  (Of.ex_ends (v := c!"case a of\n        _ -") rfl (by decide) (by decide))
  ((rows_below (cs := [(0, c!"g = 1")]) (by
    intro c hc
    rcases List.mem_singleton.1 hc
    exact headOk (x := .Function (.mk none (.mk c!"g" [] (.Integer c!"1")))) rfl)).mono (by decide))
example := C78_port (n := c!"send") (w1 := c!" ") (w2 := c!" ") (s := c!"case a of\n        _ -> a") ⟨by simp, by simp⟩
  (loName_sound (s := c!"send") (r := []) rfl).2 (.cons (w := c!" ") ⟨by simp, by simp⟩ (loName_sound (s := c!"a") (r := []) rfl).2 .nil) ⟨by simp, by simp⟩
  Header.ex_gap ⟨next_cons.2 (by decide), by simp⟩
example := C78_port_header (s := c!"port send a =\n    case a of\n        _ -> a\nx") (r := c!"\nx") rfl

/-- The two definitions. -/
def Header.exF : Function := .mk (some ⟨c!"f", .TypeApplication (.TypeConstructor [c!"Int"] []) (.TypeConstructor [c!"Int"] [])⟩)
  (.mk c!"f" [.Variable [c!"x"]] (.Case (.Variable [c!"x"])
    [(.Integer c!"0", .Integer c!"1"), (.Variable [c!"_"], .Integer c!"2")]))
@[inherit_doc Header.exF]
def Header.exMain : Function := .mk none (.mk c!"main" []
  (.Let [.LetBinding (.Variable [c!"a"]) (.Integer c!"1")] (.Application (.Variable [c!"f"]) (.Variable [c!"a"]))))

@[inherit_doc Header.ex_port]
def Header.exPort : Statement := .PortDeclaration c!"send" [c!"a"]
  (.Case (.Variable [c!"a"]) [(.Variable [c!"_"], .Variable [c!"a"])])

set_option maxRecDepth 20000 in
/-- An import, two definitions, a comment and a port, with blank lines between. -/
example : file (c!"import A" ++ (c!"\n\n\nf : Int -> Int\nf x =\n    case x of\n        0 -> 1\n        _ -> 2" ++
    (c!"\n-- next" ++ (c!"\n\nmain =\n    let\n        a = 1\n    in f a" ++ c!"\nport send a =\n    case a of\n        _ -> a")))) =
    .ok [.ImportStatement [c!"A"] none none, .Function Header.exF, .Comment c!" next", .Function Header.exMain, Header.exPort] [] := by
  refine C78_join (.ImportStatement [c!"A"] none none, c!"import A")
    [(2, .Function Header.exF, c!"f : Int -> Int\nf x =\n    case x of\n        0 -> 1\n        _ -> 2"),
      (0, .Comment c!" next", c!"-- next"), (1, .Function Header.exMain, c!"main =\n    let\n        a = 1\n    in f a"),
      (0, Header.exPort, c!"port send a =\n    case a of\n        _ -> a")] ?_
  intro q hq
  simp only [List.map_cons, List.map_nil, List.mem_cons, List.not_mem_nil, or_false] at hq
  rcases hq with rfl | rfl | rfl | rfl | rfl
  · exact ⟨rfl, .inl trivial⟩
  · exact ⟨rfl, .inr Header.ex_laid⟩
  · exact ⟨rfl, .inl trivial⟩
  · exact ⟨rfl, .inr Header.ex_laid'⟩
  · exact ⟨rfl, .inr Header.ex_port_laid⟩

/-- With the body on the line of the `=` the indentation of the definition counts, and a line in column 0 can belong to it. -/
example : ∃ e, function 0 (c!"f = a as" ++ c!"\nb") = .ok e [] := ⟨_, rfl⟩

end ElmParser
