import Verif.Props.Statements
import Verif.Props.Types
import Verif.Proofs.Flat

/-! Property C54: what has been read, read alone, gives the same; and declarations can be put together again. -/
namespace ElmParser
open Spec

/-! ### C54 -/

/-- C54: the text a type was read from, without the text after it, is read as the same type, to its end. -/
theorem C54_type {ind : Nat} {s r : Str} {t : Ty} (h : type_ ind s = .ok t r) :
    ∃ c, s = c ++ r ∧ type_ ind c = .ok t [] := by
  obtain ⟨c, rfl, hc⟩ := type_sound h
  exact ⟨c, rfl, by simpa using type_complete hc (tyStop_nil ind)⟩
example := C54_type (ind := 0) (s := c!"Dict (Maybe a) { x : Int } -> c") rfl
@[inherit_doc C54_type]
theorem C54_typeAnnotation {ind : Nat} {s r : Str} {t : Ty} (h : typeAnnotation ind s = .ok t r) :
    ∃ c, s = c ++ r ∧ typeAnnotation ind c = .ok t [] := by
  obtain ⟨c, rfl, hc⟩ := typeAnnotation_sound h
  exact ⟨c, rfl, by simpa using typeAnnotation_complete hc (tyStop_nil ind)⟩
example := C54_typeAnnotation (ind := 0) (s := c!"(a -> List b) -> { x : Int } -> c\n=") rfl

/-- C54: the same for expressions without `let` and `case`. -/
theorem C54_expression {ind : Nat} {s r : Str} {e : Expr} (h : expression ind s = .ok e r) (he : Flat e) :
    ∃ c, s = c ++ r ∧ expression ind c = .ok e [] := by
  obtain ⟨c, rfl, hc⟩ := eSound_expression h
  exact ⟨c, rfl, by simpa using expression_complete (src_flat hc he) (stop_nil ind)⟩
example := C54_expression (ind := 0) (s := c!"f [x, 1]\n)") rfl (.app .var (.list (by simp; exact ⟨.var, .int⟩)))
@[inherit_doc C54_expression]
theorem C54_function {ind : Nat} {s r : Str} {f : Function} (h : function ind s = .ok f r) (hf : FlatFunction f) :
    ∃ c, s = c ++ r ∧ function ind c = .ok f [] := by
  obtain ⟨c, rfl, hc⟩ := functionF_sound eSound_expression h
  exact ⟨c, rfl, by simpa using function_complete (src_flat hc hf) (stop_nil ind)⟩

theorem stmtText_file {x : Statement} {c : Str} (h : StmtText True x c) : statement c = .ok x [] ∧ file c = .ok [x] [] := by
  constructor
  · rcases h with h | ⟨t, rfl, ht, rfl⟩
    · simpa using statement_complete h (r := []) (stmts_follow (sts := []) (.last (by simp [Whites])))
    · simpa using statement_line (r := []) ht (next_nil _)
  · simpa [lines] using C24_newlines (x, c) [] (by simpa using h)

theorem statement_text {s r : Str} {x : Statement} (h : statement s = .ok x r) (hx : FlatStatement x) :
    ∃ c, s = c ++ r ∧ StmtText True x c := by
  rcases statement_sound h with ⟨t, rfl, rfl, ht, -⟩ | ⟨c, rfl, hc⟩
  · exact ⟨c!"--" ++ t, rfl, .inr ⟨t, rfl, ht, rfl⟩⟩
  · exact ⟨c, rfl, .inl (stmtSrc_flat hc hx)⟩

/-- C54: the same for declarations without `let` and `case`; the text alone is also a file. -/
theorem C54_statement {s r : Str} {x : Statement} (h : statement s = .ok x r) (hx : FlatStatement x) :
    ∃ c, s = c ++ r ∧ statement c = .ok x [] ∧ file c = .ok [x] [] := by
  obtain ⟨c, e, hc⟩ := statement_text h hx
  exact ⟨c, e, stmtText_file hc⟩

/-- C54: texts that alone are read as declarations without `let` and `case` are, on consecutive lines and in any order, a
file with these declarations. -/
theorem C54_join (p : Statement × Str) (ps : List (Statement × Str))
    (h : ∀ q ∈ p :: ps, FlatStatement q.1 ∧ statement q.2 = .ok q.1 []) :
    file (p.2 ++ lines (ps.map (·.2))) = .ok (p.1 :: ps.map (·.1)) [] := by
  refine C24_newlines p ps fun q hq => ?_
  obtain ⟨c, e, hc⟩ := statement_text (h q hq).2 (h q hq).1
  rw [List.append_nil] at e
  rw [e]; exact hc

/-- `Apart cs c`: the text `c` consists of the texts `cs` in this order with white space around each. -/
inductive Apart : List Str → Str → Prop
  | nil {w} : Whites w → Apart [] w
  | cons {w c cs d} : Whites w → Apart cs d → Apart (c :: cs) (w ++ c ++ d)

theorem stmts_apart {b : Bool} {sts : List Statement} {d : Str} (h : Stmts False b sts d) (hx : ∀ x ∈ sts, FlatStatement x) (w : Str)
    (hw : Whites w) : ∃ ps : List (Statement × Str), ps.map (·.1) = sts ∧ Apart (ps.map (·.2)) (w ++ d) ∧
      ∀ p ∈ ps, StmtText True p.1 p.2 := by
  induction h generalizing w with
  | last h => exact ⟨[], rfl, .nil (by
      intro c hc; rcases List.mem_append.1 hc with hc | hc
      · exact hw c hc
      · exact h c hc), by simp⟩
  | @sep w' sts c h1 _ _ _ ih =>
    have := ih hx (w ++ w') (by
      intro c hc; rcases List.mem_append.1 hc with hc | hc
      · exact hw c hc
      · exact h1 c hc)
    rwa [List.append_assoc] at this
  | @line t sts r h1 _ _ ih =>
    obtain ⟨ps, rfl, h2, h3⟩ := ih (fun x h => hx x (List.mem_cons_of_mem _ h)) [] (by simp [Whites])
    refine ⟨(.Comment t, c!"--" ++ t) :: ps, rfl, ?_, List.forall_mem_cons.2 ⟨.inr ⟨t, rfl, h1, rfl⟩, h3⟩⟩
    rw [← List.append_assoc]
    exact .cons hw h2
  | @stmt x c sts r h1 _ ih =>
    obtain ⟨ps, rfl, h2, h3⟩ := ih (fun x h => hx x (List.mem_cons_of_mem _ h)) [] (by simp [Whites])
    refine ⟨(x, c) :: ps, rfl, ?_, List.forall_mem_cons.2 ⟨.inl (stmtSrc_flat h1 (hx x (by simp))), h3⟩⟩
    rw [← List.append_assoc]
    exact .cons hw h2

/-- C54: a file of declarations without `let` and `case` consists, up to white space, of texts that alone are read as these
declarations. -/
theorem C54_file {s : Str} {sts : List Statement} (h : file s = .ok sts []) (hx : ∀ x ∈ sts, FlatStatement x) :
    ∃ ps : List (Statement × Str), ps.map (·.1) = sts ∧ Apart (ps.map (·.2)) s ∧
      ∀ p ∈ ps, statement p.2 = .ok p.1 [] := by
  obtain ⟨-, w, d, rfl, hw, hd⟩ := file_sound h
  obtain ⟨ps, h1, h2, h3⟩ := stmts_apart hd hx w hw
  exact ⟨ps, h1, h2, fun p hp => (stmtText_file (h3 p hp)).1⟩

/-! Cases. -/

example : type_ 0 c!"Dict a (b, c) }" = .ok (.TypeConstructor [c!"Dict"] [.TypeVariable c!"a",
    .TypeTuple [.TypeVariable c!"b", .TypeVariable c!"c"]]) c!" }" := by rfl
example : type_ 0 c!"Dict a (b, c)" = .ok (.TypeConstructor [c!"Dict"] [.TypeVariable c!"a",
    .TypeTuple [.TypeVariable c!"b", .TypeVariable c!"c"]]) [] := by rfl
/-- The expression stops before the `)`. -/
example : expression 0 c!"f (a, b) .c + { d = \\e -> e } )" =
    .ok (.BinOp (.Variable [c!"+"])
      (.Application (.Application (.Variable [c!"f"]) (.Tuple [.Variable [c!"a"], .Variable [c!"b"]])) (.AccessFunction c!"c"))
      (.Record [(c!"d", .Lambda [.Variable [c!"e"]] (.Variable [c!"e"]))])) c!" )" := by rfl
example : Flat (.BinOp (.Variable [c!"+"])
      (.Application (.Application (.Variable [c!"f"]) (.Tuple [.Variable [c!"a"], .Variable [c!"b"]])) (.AccessFunction c!"c"))
      (.Record [(c!"d", .Lambda [.Variable [c!"e"]] (.Variable [c!"e"]))])) := by
  refine .binop .var (.app (.app .var (.tuple ?_)) .accessFn) (.record ?_)
  · simp only [List.forall_mem_cons, List.not_mem_nil, false_imp_iff, implies_true, and_true]
    exact ⟨.var, .var⟩
  · simp only [List.forall_mem_cons, List.not_mem_nil, false_imp_iff, implies_true, and_true]
    exact .lambda (by simp only [List.forall_mem_cons, List.not_mem_nil, false_imp_iff, implies_true, and_true]; exact .var) .var
/-- A function with a signature, in front of another one. -/
example : function 0 c!"f : a -> a\nf x = if x then 1 else g x\nh = 2" =
    .ok (.mk (some ⟨c!"f", .TypeApplication (.TypeVariable c!"a") (.TypeVariable c!"a")⟩) (.mk c!"f" [.Variable [c!"x"]]
      (.If (.Variable [c!"x"]) (.Integer c!"1") (.Application (.Variable [c!"g"]) (.Variable [c!"x"]))))) c!"\nh = 2" := by rfl
/-- A file with several declarations on a line. -/
example : file c!" import A import B -- c\ntype C = D" = .ok [.ImportStatement [c!"A"] none none,
    .ImportStatement [c!"B"] none none, .Comment c!" c",
    .TypeDeclaration (.TypeConstructor [c!"C"] []) [.TypeConstructor [c!"D"] []]] [] := by rfl
example : Apart [c!"import A", c!"import B", c!"-- c", c!"type C = D"] c!" import A import B -- c\ntype C = D" :=
  .cons (w := c!" ") (c := c!"import A") (by simp [Whites, White]) <|
  .cons (w := c!" ") (c := c!"import B") (by simp [Whites, White]) <|
  .cons (w := c!" ") (c := c!"-- c") (by simp [Whites, White]) <|
  .cons (w := c!"\n") (c := c!"type C = D") (by simp [Whites, White]) <| .nil (w := []) (by simp [Whites])
/-- The same declarations in another order. -/
example : file (c!"type C = D" ++ lines [c!"import B", c!"-- c", c!"import A"]) =
    .ok [.TypeDeclaration (.TypeConstructor [c!"C"] []) [.TypeConstructor [c!"D"] []], .ImportStatement [c!"B"] none none,
      .Comment c!" c", .ImportStatement [c!"A"] none none] [] :=
  C54_join (_, _) [(_, _), (_, _), (_, _)] (by
    simp only [List.mem_cons, List.not_mem_nil, or_false]
    rintro q (rfl | rfl | rfl | rfl) <;> exact ⟨trivial, rfl⟩)
/-- Functions, too. -/
example : file (c!"f x = g x" ++ lines [c!"import B", c!"g = h"]) =
    .ok [.Function (.mk none (.mk c!"f" [.Variable [c!"x"]] (.Application (.Variable [c!"g"]) (.Variable [c!"x"])))),
      .ImportStatement [c!"B"] none none, .Function (.mk none (.mk c!"g" [] (.Variable [c!"h"])))] [] :=
  C54_join (_, _) [(_, _), (_, _)] (by
    simp only [List.mem_cons, List.not_mem_nil, or_false]
    rintro q (rfl | rfl | rfl)
    · refine ⟨⟨?_, .app .var .var⟩, rfl⟩
      simp only [List.forall_mem_cons, List.not_mem_nil, false_imp_iff, implies_true, and_true]
      exact .var
    · exact ⟨trivial, rfl⟩
    · exact ⟨⟨by simp, .var⟩, rfl⟩)
/-- The line breaks are needed: on one line the second declaration becomes part of the first. -/
example : file c!"type C = D type E = F" = .err := by rfl
example := C54_function (ind := 0) (s := c!"f x = x\n\ng = 1") rfl (by exact ⟨by simp; exact .var, .var⟩)
example := C54_statement (s := c!"import A as B\nx = 1") rfl trivial
example := C54_file (s := c!"import A\n\nimport B as C\n") rfl (by simp; exact ⟨trivial, trivial⟩)

end ElmParser
