import Verif.Proofs.TypeHeader
import Verif.Props.Topline

/-! C81: declarations that end with a type or with constructors, and signatures. -/
namespace ElmParser
open Spec

/-- **C81.** After its header a type alias or a port is read exactly if a type is read, and what is left is what the type
leaves. -/
theorem C81_type {mk : Ty → Statement} {i : Nat} {h s : Str} (hh : TypeHeader mk i h) (hs : NoGap s) (x : Statement) (r : Str) :
    statement (h ++ s) = .ok x r ↔ ∃ t, typeAnnotation i s = .ok t r ∧ x = mk t := typeHeader_statement hh hs x r

/-- **C81.** Conversely every type alias, every port without a body and every custom type starts with such a header. -/
theorem C81_header {s r : Str} {x : Statement} (h : statement s = .ok x r) :
    (∀ t u, x = .TypeAliasDeclaration t u → ∃ c d i, TypeHeader (fun u => .TypeAliasDeclaration t u) i c ∧ NoGap d ∧ s = c ++ d ∧
      typeAnnotation i d = .ok u r) ∧
    (∀ n u, x = .PortTypeDeclaration n u → ∃ c d i, TypeHeader (fun u => .PortTypeDeclaration n u) i c ∧ NoGap d ∧ s = c ++ d ∧
      typeAnnotation i d = .ok u r) ∧
    (∀ t us, x = .TypeDeclaration t us → ∃ c d i, CustomHeader t i c ∧ NoGap d ∧ s = c ++ d) := by
  have key := h
  rcases statement_sound h with ⟨t, rfl, -⟩ | ⟨c, rfl, hc⟩
  · exact ⟨nofun, nofun, nofun⟩
  refine ⟨?_, ?_, ?_⟩
  · rintro t u rfl
    cases hc with
    | @typeAlias _ _ w1 w2 w3 g i c d h1 h2 h3 h4 h5 h6 =>
      have hh := TypeHeader.alias_ h1 h2 h3 h4 h5
      have hd : NoGap (d ++ r) := ty_head_noGap h6 trivial
      rw [List.append_assoc] at key
      obtain ⟨t', h7, e⟩ := (C81_type hh hd _ _).1 key
      cases e
      exact ⟨_, d ++ r, 1, hh, hd, by simp, h7⟩
  · rintro n u rfl
    cases hc with
    | @portType _ _ w1 w2 g i c h1 h2 h3 h4 h5 =>
      have hh := TypeHeader.port h1 h2 h3 h4
      have hd : NoGap (c ++ r) := ty_head_noGap h5 trivial
      rw [List.append_assoc] at key
      obtain ⟨t', h7, e⟩ := (C81_type hh hd _ _).1 key
      cases e
      exact ⟨_, c ++ r, i, hh, hd, by simp, h7⟩
  · rintro t us rfl
    cases hc with
    | @type_ _ _ _ _ w g1 i g2 i2 c d ds h1 h2 h3 h4 h5 h6 =>
      have hd : NoGap (d ++ (ds ++ r)) := ty_head_noGap h5 trivial
      exact ⟨_, d ++ (ds ++ r), i, .mk h1 h2 h3 h4, hd, by simp⟩

/-- **C81.** It ends, whatever the type, where a line is not indented more than the type has to be: lines there are not looked at. -/
theorem C81_ends {mk : Ty → Statement} {i : Nat} {h d b : Str} (hh : TypeHeader mk i h) (hd : NoGap (d ++ b)) (hu : Shut d) (he : Ends d)
    (hb : Below (i + 1) b) (x : Statement) (r : Str) :
    statement (h ++ d ++ b) = .ok x r ↔ ∃ t w, typeAnnotation i d = .ok t w ∧ x = mk t ∧ r = w ++ b := by
  rw [List.append_assoc, C81_type hh hd]
  simp only [C76_type hu he hb]
  constructor
  · rintro ⟨e, ⟨w, h1, h2⟩, h3⟩; exact ⟨e, w, h1, h3, h2⟩
  · rintro ⟨e, w, h1, h3, h2⟩; exact ⟨e, ⟨w, h1, h2⟩, h3⟩

/-- **C81.** A custom type ends, whatever its constructors, where a line is indented less than its `=`, or by as much if no `|`
stands there: it is read before such a line exactly if it is read alone. -/
theorem C81_custom {t : Ty} {i : Nat} {h d b : Str} (hh : CustomHeader t i h) (hd : NoGap d) (hd' : NoGap (d ++ b)) (hu : Shut d)
    (he : Ends d) (hb : BelowBar i b) (x : Statement) (r : Str) :
    statement (h ++ d ++ b) = .ok x r ↔ ∃ w, statement (h ++ d) = .ok x w ∧ r = w ++ b := by
  have tot : ∀ s, constructors i s ≠ .div ∧ constructors i s ≠ .panic := fun s => by
    rcases err_or_ok (fun k => cons_constructors k i) s with h | ⟨v, r, h, -⟩ <;> simp [h]
  have hnil : BelowBar i [] := .inl .nil
  have key := Of.answer' (Of.sm_constructors ⟨hu, he⟩ hb hnil) tot
  rw [List.append_assoc, customHeader_statement hh hd']
  simp only [customHeader_statement hh hd, key]
  constructor
  · rintro ⟨us, ⟨w, h1, h2⟩, h3⟩; exact ⟨w, ⟨us, h1, h3⟩, h2⟩
  · rintro ⟨w, ⟨us, h1, h3⟩, h2⟩; exact ⟨us, ⟨w, h1, h2⟩, h3⟩

theorem function_none {u r : Str} {d : FunctionDefinition} :
    function 0 u = .ok (.mk none d) r ↔ functionDefinitionF expression 0 u = .ok d r := by
  change functionF expression 0 u = _ ↔ _
  unfold functionF
  simp only [bind_eq_ok, pure_eq_ok]
  constructor
  · rintro ⟨o, s1, k1, d', s2, k2, e, rfl⟩
    cases e
    rcases opt_eq_ok.1 k1 with ⟨sg, -, e⟩ | ⟨-, -, rfl⟩
    · cases e
    · exact k2
  · intro h
    refine ⟨none, u, opt_eq_ok.2 (.inr ⟨?_, rfl, rfl⟩), d, r, h, rfl, rfl⟩
    rw [terminated_apply]
    rcases err_or_ok (fun k => cons_functionSignature k 0) u with e | ⟨sg, r', e, -⟩
    · rw [e]; rfl
    exfalso
    unfold functionSignature at e
    unfold functionDefinitionF at h
    simp only [bind_eq_ok] at e h
    obtain ⟨n, s1, k1, w, s2, k2, c, s3, k3, -⟩ := e
    obtain ⟨n', t1, j1, as, t2, j2, w', t3, j3, c', t4, j4, -⟩ := h
    obtain ⟨rfl, rfl⟩ := ok_inj k1 j1
    obtain ⟨-, rfl⟩ := char_eq_ok.1 k3
    obtain ⟨rfl, hw, hw', -⟩ := spaces_iff.1 k2
    have := many0_ok_of_run (.nil _) (fargs_end (ind := 0) (t := s3) ⟨hw, hw'⟩ (x := ':') (by decide) (by decide))
    obtain ⟨rfl, rfl⟩ := ok_inj this j2
    obtain ⟨-, rfl⟩ := ok_inj k2 j3
    rw [char_cons_ne _ (by decide)] at j4
    cases j4

/-- **C81.** After a signature up to its type a declaration is read exactly if a type is read, a line end comes right behind it, and a
definition right behind that. -/
theorem C81_signature {n : Name} {i : Nat} {h s : Str} (hh : SignatureHeader n i h) (hs : NoGap s) (x : Statement) (r : Str) :
    statement (h ++ s) = .ok x r ↔ ∃ t k u d, typeAnnotation i s = .ok t ('\n' :: (sp k ++ u)) ∧ k % 4294967296 = 0 ∧ Next (· ≠ ' ') u ∧
      function 0 u = .ok (.mk none d) r ∧ x = .Function (.mk (some ⟨n, t⟩) d) := by
  simp only [function_none]
  exact signatureHeader_statement hh hs x r

/-- A text that begins like a declaration, and either is none, or is one and is followed by something that is none. -/
theorem file_bad {s : Str} (hs : StmtHead s) (h : ∀ x r, statement s = .ok x r →
    ∃ v y u, r = v ++ y :: u ∧ Whites v ∧ ¬ White y ∧ ¬ StartsStatement (y :: u)) : file s = .err := by
  rcases C01_file_total s with e | ⟨xs, e⟩
  · exact e
  exfalso
  obtain ⟨w, hw, h1⟩ := (file_white hs.white.1).1 e
  obtain ⟨v, vs, r1, rfl, h2, h3, h4⟩ := (sepNonemptyList_iff cons_multispace cons_statement).1 h1
  obtain ⟨v', x, u, rfl, h8, h9, h10⟩ := h _ _ h2
  cases h3 with
  | nil => exact h9 (hw x (by simp))
  | cons k1 _ _ =>
    obtain ⟨_, _, k2, k3⟩ := preceded_eq_ok.1 k1
    obtain ⟨e3, -, k4, k5⟩ := multispace_iff.1 k2
    obtain ⟨-, rfl⟩ := whites_unique h8 (next_cons.2 h9) k4 k5 e3
    exact h10 (C43_statement k3)

theorem typeHeader_head {mk : Ty → Statement} {i : Nat} {h : Str} (hh : TypeHeader mk i h) (t : Str) : StmtHead (h ++ t) := by
  cases hh <;> exact stmtHead_word (by decide) (by decide)

theorem customHeader_head {t : Ty} {i : Nat} {h : Str} (hh : CustomHeader t i h) (s : Str) : StmtHead (h ++ s) := by
  cases hh; exact stmtHead_word (by decide) (by decide)

theorem signatureHeader_head {n : Name} {i : Nat} {h : Str} (hh : SignatureHeader n i h) (s : Str) : StmtHead (h ++ s) := by
  cases hh with
  | mk hn hw hg =>
    simp only [List.append_assoc]
    exact stmtHead_fnName hn (termStop_spaces hw).ident

theorem stmtHead_topLine {s : Str} (h : StmtHead s) : TopLine s :=
  ⟨h.head, fun ⟨w, t, e, hw⟩ => h.notOp ⟨_, w, t, e, hw, .inl rfl⟩⟩

/-- **C81.** A type alias or a port whose type cannot be read, or is followed by something that does not begin a declaration,
makes a file fail wherever it stands. -/
theorem C81_type_anywhere (ps : List (Statement × Str × Nat))
    (hps : ∀ p ∈ ps, statement p.2.1 = .ok p.1 [] ∧ (FlatStatement p.1 ∨ Laid p.2.1))
    {mk : Ty → Statement} {i : Nat} {h d b : Str} (hh : TypeHeader mk i h) (hd : NoGap (d ++ b)) (hu : Shut d) (he : Ends d)
    (hb : Below (i + 1) b)
    (hbad : typeAnnotation i d = .err ∨ ∃ e v x w, typeAnnotation i d = .ok e (v ++ x :: w) ∧ Whites v ∧ ¬ White x ∧ ¬ StartsStatement (x :: (w ++ b))) :
    file (ahead (ps.map (·.2)) (h ++ d ++ b)) = .err := by
  have hhd : StmtHead (h ++ d ++ b) := by rw [List.append_assoc]; exact typeHeader_head hh _
  refine (C79_refused ps hps (stmtHead_topLine hhd)).2 (file_bad hhd fun x r e => ?_)
  obtain ⟨t, w, h1, -, rfl⟩ := (C81_ends hh hd hu he hb x r).1 e
  rcases hbad with hbad | ⟨e'', v', x, u, h7, h8, h9, h10⟩
  · rw [hbad] at h1; cases h1
  · obtain ⟨-, rfl⟩ := ok_inj h7 h1
    exact ⟨v', x, u ++ b, by simp, h8, h9, h10⟩

/-- **C81.** The same with a custom type that cannot be read alone, or of which something is left over that does not begin a
declaration. -/
theorem C81_custom_anywhere (ps : List (Statement × Str × Nat))
    (hps : ∀ p ∈ ps, statement p.2.1 = .ok p.1 [] ∧ (FlatStatement p.1 ∨ Laid p.2.1))
    {t : Ty} {i : Nat} {h d b : Str} (hh : CustomHeader t i h) (hd : NoGap d) (hd' : NoGap (d ++ b)) (hu : Shut d) (he : Ends d)
    (hb : BelowBar i b)
    (hbad : statement (h ++ d) = .err ∨ ∃ e v x w, statement (h ++ d) = .ok e (v ++ x :: w) ∧ Whites v ∧ ¬ White x ∧ ¬ StartsStatement (x :: (w ++ b))) :
    file (ahead (ps.map (·.2)) (h ++ d ++ b)) = .err := by
  have hhd : StmtHead (h ++ d ++ b) := by rw [List.append_assoc]; exact customHeader_head hh _
  refine (C79_refused ps hps (stmtHead_topLine hhd)).2 (file_bad hhd fun x r e => ?_)
  obtain ⟨w, h1, rfl⟩ := (C81_custom hh hd hd' hu he hb x r).1 e
  rcases hbad with hbad | ⟨e'', v', x, u, h7, h8, h9, h10⟩
  · rw [hbad] at h1; cases h1
  · obtain ⟨-, rfl⟩ := ok_inj h7 h1
    exact ⟨v', x, u ++ b, by simp, h8, h9, h10⟩

/-- **C81.** A signature whose type cannot be read, or is followed by something other than a line end, makes a file fail wherever
it stands, whatever comes on the next lines. -/
theorem C81_signature_anywhere (ps : List (Statement × Str × Nat))
    (hps : ∀ p ∈ ps, statement p.2.1 = .ok p.1 [] ∧ (FlatStatement p.1 ∨ Laid p.2.1))
    {n : Name} {i : Nat} {h d b : Str} (hh : SignatureHeader n i h) (hd : NoGap (d ++ b)) (hu : Shut d) (he : Ends d)
    (hb : Below (i + 1) b) (hbad : ∀ t w, typeAnnotation i d = .ok t w → ∃ x w', w = x :: w' ∧ x ≠ '\n') :
    file (ahead (ps.map (·.2)) (h ++ d ++ b)) = .err := by
  have hhd : StmtHead (h ++ d ++ b) := by rw [List.append_assoc]; exact signatureHeader_head hh _
  refine (C79_refused ps hps (stmtHead_topLine hhd)).2 (file_bad hhd fun x r e => ?_)
  rw [List.append_assoc] at e
  obtain ⟨t, k, u, f, h1, -⟩ := (C81_signature hh hd x r).1 e
  obtain ⟨w, h2, h3⟩ := (C76_type hu he hb t _).1 h1
  obtain ⟨y, w', rfl, hy⟩ := hbad t w h2
  exact absurd (List.cons.inj h3).1.symm hy

/-- **C81.** So does a signature that is not followed, on the very next line, by a name: a blank line or a comment in between
is refused. -/
theorem C81_signature_alone (ps : List (Statement × Str × Nat))
    (hps : ∀ p ∈ ps, statement p.2.1 = .ok p.1 [] ∧ (FlatStatement p.1 ∨ Laid p.2.1))
    {n : Name} {i : Nat} {h d b : Str} {y : Char} {t : Ty} (hh : SignatureHeader n i h) (hd : NoGap (d ++ '\n' :: y :: b)) (hu : Shut d)
    (he : Ends d) (hb : Below (i + 1) ('\n' :: y :: b)) (ht : typeAnnotation i d = .ok t [])
    (hy : y ≠ ' ' ∧ ¬ Lower y ∧ y ≠ '_' ∧ y ≠ '(') : file (ahead (ps.map (·.2)) (h ++ d ++ '\n' :: y :: b)) = .err := by
  have hhd : StmtHead (h ++ d ++ '\n' :: y :: b) := by rw [List.append_assoc]; exact signatureHeader_head hh _
  refine (C79_refused ps hps (stmtHead_topLine hhd)).2 (file_bad hhd fun x r e => ?_)
  rw [List.append_assoc] at e
  obtain ⟨t', k, u, f, h1, -, -, h4, -⟩ := (C81_signature hh hd x r).1 e
  obtain ⟨w, h2, h3⟩ := (C76_type hu he hb t' _).1 h1
  obtain ⟨-, rfl⟩ := ok_inj ht h2
  have h3 := (List.cons.inj h3).2
  cases k with
  | succ k => exact absurd (List.cons.inj h3).1.symm hy.1
  | zero =>
    have e : u = y :: b := h3
    subst e
    rw [function_none] at h4
    unfold functionDefinitionF at h4
    simp only [bind_eq_ok] at h4
    obtain ⟨_, _, k1, -⟩ := h4
    obtain ⟨m, e, hm⟩ := functionNameOrOp_sound k1
    obtain ⟨z, m', rfl, hz⟩ := fnName_head hm
    obtain ⟨rfl, -⟩ := List.cons.inj e
    rcases hz with hz | hz | hz
    · exact absurd hz hy.2.2.2
    · exact absurd hz hy.2.1
    · exact absurd hz hy.2.2.1

/-! ### Examples -/

theorem TypeHeader.ex_spaces : SpacesTxt c!" " := ⟨by simp, by simp⟩
theorem TypeHeader.ex_con : TySrc 0 (.ty (.TypeConstructor [c!"A"] [])) c!"A" := by
  obtain ⟨c, e, ht⟩ := type_sound (ind := 0) (s := c!"A") (r := []) (t := .TypeConstructor [c!"A"] []) rfl
  rw [List.append_nil] at e
  exact e ▸ ht
theorem TypeHeader.ex_lo : LoName c!"p" := by cases Header.ex_name (n := c!"p") rfl; assumption
theorem TypeHeader.ex_below : Below 1 c!"\n\n\n-- next\ng = 1" :=
  rows_below (cs := [(2, c!"-- next"), (0, c!"g = 1")]) (by
    intro c hc
    simp only [List.mem_cons, List.not_mem_nil, or_false] at hc
    rcases hc with rfl | rfl
    · exact headOk (x := .Comment c!" next") rfl
    · exact headOk (x := .Function (.mk none (.mk c!"g" [] (.Integer c!"1")))) rfl)

/-- `type alias A =` and a record on the next line. -/
theorem TypeHeader.ex_alias : TypeHeader (fun u => .TypeAliasDeclaration (.TypeConstructor [c!"A"] []) u) 1 c!"type alias A =\n    " :=
  .alias_ (w1 := c!" ") (w2 := c!" ") (w3 := c!" ") (g := c!"\n    ") (i := 4) ex_spaces ex_spaces ex_con ex_spaces
    ⟨[⟨0, none⟩], 4, rfl, by simp, by simp [Line.ok], .inr ⟨by simp, rfl, by simp [Rel]⟩⟩
/-- `port p :` with the type on the same line. -/
theorem TypeHeader.ex_port : TypeHeader (fun u => .PortTypeDeclaration c!"p" u) 0 c!"port p : " :=
  .port (w1 := c!" ") (w2 := c!" ") (g := c!" ") ex_spaces ex_lo ex_spaces (spacesTxt_gap ex_spaces 0 .GT)
/-- `type A` and `=` on the next line. -/
theorem TypeHeader.ex_custom : CustomHeader (.TypeConstructor [c!"A"] []) 4 c!"type A\n    = " :=
  .mk (w := c!" ") (g1 := c!"\n    ") (g2 := c!" ") ex_spaces ex_con
    ⟨[⟨0, none⟩], 4, rfl, by simp, by simp [Line.ok], .inr ⟨by simp, rfl, by simp [Rel]⟩⟩ (spacesTxt_gap ex_spaces 4 .GTE)
/-- `type A =` on one line. -/
theorem TypeHeader.ex_line : CustomHeader (.TypeConstructor [c!"A"] []) 0 c!"type A = " :=
  .mk (w := c!" ") (g1 := c!" ") (g2 := c!" ") ex_spaces ex_con (spacesTxt_gap ex_spaces 0 .GT) (spacesTxt_gap ex_spaces 0 .GTE)
theorem TypeHeader.ex_bar : BelowBar 0 c!"\n\n\n-- next\ng = 1" := by
  refine .inr ⟨TypeHeader.ex_below, fun ls last t h => ?_⟩
  have : '|' ∈ c!"\n\n\n-- next\ng = 1" := by rw [h.split]; simp
  revert this; decide
theorem TypeHeader.ex_signature : SignatureHeader c!"f" 0 c!"f : " :=
  .mk (w := c!" ") (g := c!" ") (Header.ex_name rfl) ex_spaces (spacesTxt_gap ex_spaces 0 .GT)

/-- A type that can be read, and lines after it. -/
example : statement (c!"type alias A =\n    " ++ c!"Maybe\n    Int" ++ c!"\n\n\n-- next\ng = 1") =
    .ok (.TypeAliasDeclaration (.TypeConstructor [c!"A"] []) (.TypeConstructor [c!"Maybe"] [.TypeConstructor [c!"Int"] []]))
      c!"\n\n\n-- next\ng = 1" :=
  (C81_ends TypeHeader.ex_alias (d := c!"Maybe\n    Int") ⟨next_cons.2 (by decide), by simp⟩ (Sh.ex_plain (by decide))
    (Of.ex_ends (v := c!"Maybe\n    ") rfl (by decide) (by decide)) (TypeHeader.ex_below.mono (by decide)) _ _).2
    ⟨_, [], rfl, rfl, rfl⟩
example := C81_header (s := c!"type alias A = B\n") (r := c!"\n") (x := .TypeAliasDeclaration (.TypeConstructor [c!"A"] []) (.TypeConstructor [c!"B"] [])) rfl
example := C81_type (s := c!"Int -> Int") TypeHeader.ex_port ⟨next_cons.2 (by decide), by simp⟩
example := C81_custom (d := c!"B Int\n    | C") TypeHeader.ex_custom ⟨next_cons.2 (by decide), by simp⟩ ⟨next_cons.2 (by decide), by simp⟩
  (Sh.ex_plain (by decide)) (Of.ex_ends (v := c!"B Int\n    ") rfl (by decide) (by decide)) (.inl (TypeHeader.ex_below.mono (by decide)))
/-- The same with `=` on the first line. -/
example := C81_custom (d := c!"B Int\n    | C") TypeHeader.ex_line ⟨next_cons.2 (by decide), by simp⟩ ⟨next_cons.2 (by decide), by simp⟩
  (Sh.ex_plain (by decide)) (Of.ex_ends (v := c!"B Int\n    ") rfl (by decide) (by decide)) TypeHeader.ex_bar
example := C81_signature (s := c!"Int\nf = 1") TypeHeader.ex_signature ⟨next_cons.2 (by decide), by simp⟩

/-- A type that is no type, and a name where an arrow should stand. -/
example : file (ahead (Header.exAhead.map (·.2)) (c!"port p : " ++ c!"5 -> Int" ++ c!"\n\n\n-- next\ng = 1")) = .err :=
  C81_type_anywhere Header.exAhead Header.exAhead_ok TypeHeader.ex_port ⟨next_cons.2 (by decide), by simp⟩ (Sh.ex_plain (by decide))
    (Of.ex_ends (v := c!"5 -> ") rfl (by decide) (by decide)) TypeHeader.ex_below (.inl rfl)
example : file (ahead (Header.exAhead.map (·.2)) (c!"type alias A =\n    " ++ c!"a = Int" ++ c!"\n\n\n-- next\ng = 1")) = .err :=
  C81_type_anywhere Header.exAhead Header.exAhead_ok TypeHeader.ex_alias ⟨next_cons.2 (by decide), by simp⟩ (Sh.ex_plain (by decide))
    (Of.ex_ends (v := c!"a = ") rfl (by decide) (by decide)) (TypeHeader.ex_below.mono (by decide))
    (.inr ⟨.TypeVariable c!"a", c!" ", '=', c!" Int", rfl, fun c hc => by rcases List.mem_singleton.1 hc; decide, by decide, by
      intro h; cases h with | lower h => revert h; decide⟩)
/-- A constructor that begins with a lower-case letter. -/
example : file (ahead (Header.exAhead.map (·.2)) (c!"type A\n    = " ++ c!"b Int\n    | C" ++ c!"\n\n\n-- next\ng = 1")) = .err :=
  C81_custom_anywhere Header.exAhead Header.exAhead_ok TypeHeader.ex_custom ⟨next_cons.2 (by decide), by simp⟩
    ⟨next_cons.2 (by decide), by simp⟩ (Sh.ex_plain (by decide)) (Of.ex_ends (v := c!"b Int\n    ") rfl (by decide) (by decide))
    (.inl (TypeHeader.ex_below.mono (by decide))) (.inl rfl)
example : file (ahead (Header.exAhead.map (·.2)) (c!"type A = " ++ c!"B | c" ++ c!"\n\n\n-- next\ng = 1")) = .err :=
  C81_custom_anywhere Header.exAhead Header.exAhead_ok TypeHeader.ex_line ⟨next_cons.2 (by decide), by simp⟩
    ⟨next_cons.2 (by decide), by simp⟩ (Sh.ex_plain (by decide)) (Of.ex_ends (v := c!"B ") rfl (by decide) (by decide))
    TypeHeader.ex_bar (.inr ⟨.TypeDeclaration (.TypeConstructor [c!"A"] []) [.TypeConstructor [c!"B"] []], c!" ", '|', c!" c", rfl,
      fun c hc => by rcases List.mem_singleton.1 hc; decide, by decide, by intro h; cases h with | lower h => revert h; decide⟩)
/-- Without the condition on the bar this is false. -/
example : statement (c!"type A = B" ++ c!"\n| C") =
    .ok (.TypeDeclaration (.TypeConstructor [c!"A"] []) [.TypeConstructor [c!"B"] [], .TypeConstructor [c!"C"] []]) [] := rfl
/-- A signature with something behind its type, and one with a blank line behind it. -/
example : file (ahead (Header.exAhead.map (·.2)) (c!"f : " ++ c!"Int = 5" ++ c!"\n\n\n-- next\ng = 1")) = .err :=
  C81_signature_anywhere Header.exAhead Header.exAhead_ok TypeHeader.ex_signature ⟨next_cons.2 (by decide), by simp⟩ (Sh.ex_plain (by decide))
    (Of.ex_ends (v := c!"Int ") rfl (by decide) (by decide)) TypeHeader.ex_below
    (fun t w h => by cases h; exact ⟨' ', _, rfl, by decide⟩)
example : file (ahead (Header.exAhead.map (·.2)) (c!"f : " ++ c!"Int" ++ c!"\n\n\n-- next\ng = 1")) = .err :=
  C81_signature_alone Header.exAhead Header.exAhead_ok (y := '\n') TypeHeader.ex_signature ⟨next_cons.2 (by decide), by simp⟩ (Sh.ex_plain (by decide))
    (Of.ex_ends (v := []) rfl (by decide) (by decide)) TypeHeader.ex_below (t := .TypeConstructor [c!"Int"] []) rfl (by decide)

end ElmParser
