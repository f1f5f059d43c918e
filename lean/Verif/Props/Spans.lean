import Verif.Proofs.Spans
import Verif.Proofs.Lower
import Verif.Props.Exact

/-! Property C71: every part of a tree stands on a piece of the text of its own, which can be read by itself. -/
namespace ElmParser
open Spec

/-- Read by itself, at indentation `i`, the text is the part, to its end. -/
def ReadsAt (i : Nat) : Node → Str → Prop
  | .expr e, c => expression i c = .ok e []
  | .target e, c => letBindingTarget expression i c = .ok e []
  | .type_ t, c => typeAnnotation i c = .ok t []

/-- Read by itself, at some indentation, the text is the part, to its end. -/
def ReadsAlone (n : Node) (c : Str) : Prop := ∃ i, ReadsAt i n c

/-- There is no `let` and no `case` in the part. -/
def FlatNode : Node → Prop
  | .expr e | .target e => Flat e
  | .type_ _ => True

/-- The piece is a layout of the part, and if the part is without `let` and `case`, it is read as the part by itself,
starting in the first column. -/
def PieceOf (n : Node) (c : Str) : Prop := LaidOut False n c ∧ (FlatNode n → ReadsAt 0 n c)

theorem laidOut_alone {n : Node} {c : Str} (h : LaidOut True n c) : ReadsAlone n c := by
  cases n with
  | expr e =>
    obtain ⟨i, j, hj, h⟩ := h
    have := src_complete h hj [] ⟨next_nil _, .inl noGap_nil⟩
    rw [List.append_nil] at this
    exact ⟨i, this⟩
  | target e =>
    obtain ⟨i, j, hj, h⟩ := h
    have := src_complete h [] (next_nil _)
    rw [List.append_nil] at this
    exact ⟨i, this⟩
  | type_ t =>
    obtain ⟨i, h⟩ := h
    have := typeAnnotation_complete h (tyStop_nil i)
    rw [List.append_nil] at this
    exact ⟨i, this⟩

theorem ty_alone {i : Nat} {t : Ty} {c : Str} (h : TySrc i (.ann t) c) : ReadsAt 0 (.type_ t) c := by
  have := typeAnnotation_complete (ty_lower h (Nat.zero_le _)) (tyStop_nil 0)
  rwa [List.append_nil] at this

theorem laidOut_piece {n : Node} {c : Str} (h : LaidOut False n c) : PieceOf n c := by
  refine ⟨h, fun hf => ?_⟩
  cases n with
  | expr e =>
    obtain ⟨i, j, hj, h⟩ := h
    have := expression_complete (src_lower h hf (Nat.zero_le _)) (stop_nil 0)
    rwa [List.append_nil] at this
  | target e =>
    obtain ⟨i, j, hj, h⟩ := h
    have := src_complete (src_lower (st' := True) (j' := 0) h hf (Nat.zero_le _)) [] (next_nil _)
    rwa [List.append_nil] at this
  | type_ t => obtain ⟨i, h⟩ := h; exact ty_alone h

/-! ### C71 -/

/-- C71: in the text of a file, the parts of its declarations stand on pieces of their own, in order and without overlap,
the parts of a part in the piece of the part; and a part without `let` and `case` is what its piece is read as by itself. -/
theorem C71_file {s r : Str} {xs : List Statement} (h : file s = .ok xs r) : FileRow PieceOf xs s :=
  (file_place (file_sound h).2).mono fun _ _ => laidOut_piece
@[inherit_doc C71_file]
theorem C71_expression {ind : Nat} {s r : Str} {e : Expr} (h : expression ind s = .ok e r) :
    ∃ c, s = c ++ r ∧ Placed PieceOf (.expr e) c := by
  obtain ⟨c, rfl, hc⟩ := eSound_expression h
  exact ⟨c, rfl, (expr_place hc (Nat.le_refl _)).mono fun _ _ => laidOut_piece⟩
@[inherit_doc C71_file]
theorem C71_type {ind : Nat} {s r : Str} {t : Ty} (h : typeAnnotation ind s = .ok t r) :
    ∃ c, s = c ++ r ∧ Placed PieceOf (.type_ t) c := by
  obtain ⟨c, rfl, hc⟩ := typeAnnotation_sound h
  exact ⟨c, rfl, Placed.mono (fun _ _ => laidOut_piece) (ty_place False hc)⟩

/-- C71: in a text of the documented grammar, every part is what its piece is read as by itself, also with `let` and
`case` in it. -/
theorem C71_valid {s : Str} {xs : List Statement} (h : FileSrc True xs s) : FileRow ReadsAlone xs s :=
  (file_place h).mono fun _ _ => laidOut_alone

/-- C71: every expression without `let` and `case`, and every type, that occurs in the tree of a file can be cut out of
the text of the file. -/
theorem C71_part {s r : Str} {xs : List Statement} {x : Statement} {n : Node} (h : file s = .ok xs r) (hx : x ∈ xs)
    (hn : Within n (statementParts x)) (hf : FlatNode n) : ∃ a c b, s = a ++ c ++ b ∧ ReadsAt 0 n c := by
  obtain ⟨a, c, b, rfl, h1⟩ := fileRow_mem (C71_file h) hx
  obtain ⟨a', c', b', rfl, h2⟩ := row_within hn h1
  exact ⟨a ++ a', c', b' ++ b, by simp, h2.rel.2 hf⟩

/-! Cases. -/

/-- A file with a signature, a block, an operator and an application. -/
def ex_spans : Str := c!"f : A\nf = case x of\n   (a) -> g y + 1\n"
def ex_spansTree : List Statement :=
  [.Function (.mk (some ⟨c!"f", .TypeConstructor [c!"A"] []⟩) (.mk c!"f" []
    (.Case (.Variable [c!"x"]) [(.Variable [c!"a"], .BinOp (.Variable [c!"+"])
      (.Application (.Variable [c!"g"]) (.Variable [c!"y"])) (.Integer c!"1"))])))]
set_option maxRecDepth 20000 in
theorem ex_spans_file : file ex_spans = .ok ex_spansTree [] := by rfl
example : FileRow PieceOf ex_spansTree ex_spans := C71_file ex_spans_file
/-- `g y` is cut out. -/
example : ∃ a c b, ex_spans = a ++ c ++ b ∧
    ReadsAt 0 (.expr (.Application (.Variable [c!"g"]) (.Variable [c!"y"]))) c :=
  C71_part ex_spans_file (List.mem_singleton.2 rfl)
    (.deeper (m := .expr _) (by exact .tail _ (.head _)) (.deeper (m := .expr _) (by exact .tail _ (.tail _ (.head _)))
      (.here (.head _)))) (.app .var .var)
/-- Without overlap: the two parts of `f x` cannot both stand on `f x`. -/
example : ¬ Row ReadsAlone [.expr (.Variable [c!"f"]), .expr (.Variable [c!"f"])] c!"f" := by
  intro h
  have key : ∀ c, ReadsAlone (.expr (.Variable [c!"f"])) c → c ≠ [] := by
    rintro _ ⟨i, h⟩ rfl
    obtain ⟨d, e, h⟩ := eSound_expression h
    have := src_starts h trivial
    simp at e
    exact this.ne_nil e
  have gen : ∀ s, Row ReadsAlone [.expr (.Variable [c!"f"]), .expr (.Variable [c!"f"])] s → 2 ≤ s.length := by
    intro s h
    cases h with
    | @cons _ _ a c d h1 h2 =>
      cases h2 with
      | @cons _ _ a2 c2 d2 h3 _ =>
        have k1 := List.length_pos_iff.2 (key _ h1.rel)
        have k2 := List.length_pos_iff.2 (key _ h3.rel)
        simp
        omega
  exact absurd (gen _ h) (by decide)
example := C71_expression (ind := 0) (s := c!"f x)") (r := c!")") (e := .Application (.Variable [c!"f"]) (.Variable [c!"x"])) rfl
example := C71_type (ind := 0) (s := c!"A b->c") (r := c!"->c") (t := .TypeConstructor [c!"A"] [.TypeVariable c!"b"]) rfl
/-- A text of the documented grammar. -/
example : FileRow ReadsAlone [.Function (.mk none (.mk c!"f" [] (.Application (.Variable [c!"g"]) (.Variable [c!"x"]))))]
    c!"f =\n  g (x)\n" := by
  refine C71_valid ⟨[], c!"f =\n  g (x)\n", rfl, by simp [Whites], ?_⟩
  rcases (C60_statement (st := True) (c := c!"f =\n  g (x)")
    (x := .Function (.mk none (.mk c!"f" [] (.Application (.Variable [c!"g"]) (.Variable [c!"x"])))))
    ⟨by simp, .app .var .var⟩).1 rfl with h | ⟨t, h, -⟩
  · exact .stmt (c := c!"f =\n  g (x)") (r := c!"\n") h (.last (by simp [Whites, White]))
  · cases h

end ElmParser
