import Verif.Proofs.ExprText
import Verif.Proofs.Names

/-! Properties of the expression parser: C15, C16, C18, C23, C26, C27, C29, and the expression
parts of C08, C11, C21, C25, C28, C37. -/
namespace ElmParser
open Spec

/-! ### Texts used in the examples -/

theorem loName_of {n : Str} (x : Char) (t : Str) (e : n = x :: t) (h : Lower x) (h' : ∀ c ∈ t, IdentChar c)
    (h'' : n ∉ keywords) : LoName n := .inr ⟨⟨x, t, e, h, h'⟩, h''⟩

theorem ex_f : LoName c!"f" := loName_of 'f' [] rfl (by decide) (by decide) (by decide)
theorem ex_x : LoName c!"x" := loName_of 'x' [] rfl (by decide) (by decide) (by decide)
theorem ex_y : LoName c!"y" := loName_of 'y' [] rfl (by decide) (by decide) (by decide)
theorem ex_one : IntText c!"1" := ⟨[], c!"1", rfl, .inl rfl, by simp, by decide⟩

theorem ex_var {st : Prop} {n : Name} {j : Nat} (ind : Nat) (h : LoName n) : SrcAt st ind j (.term (.Variable [n])) n := .var (.lo h)
theorem ex_term {st : Prop} {e : Expr} {c : Str} {ind j : Nat} (h : SrcAt st ind j (.term e) c) : SrcAt st ind j (.expr e) c := by
  have := SrcAt.eApp (.app h .args0)
  simpa using this
theorem ex_plus : InfixOp c!"+" := .inr ⟨⟨by simp, by decide, by decide⟩, by simp⟩

theorem stop_nil (ind : Nat) : Stop ind [] := ⟨next_nil _, .inl noGap_nil⟩

/-- The next line at column 0 ends an expression at a greater indentation. -/
theorem ex_stop : Stop 4 c!"\ny = 1" :=
  ⟨next_cons.2 (by decide), .inr ⟨[⟨0, none⟩], ⟨0, none⟩, c!"y = 1",
    ⟨rfl, by decide, by simp [Line.ok], by simp [Line.ok], .inl ⟨rfl, next_cons.2 (by decide), by simp⟩⟩,
    .inr ⟨by simp, .inl (by decide)⟩⟩⟩

/-! ### C18 -/

/-- C18: the expressions the parser returns are well formed. -/
theorem C18_expression {ind : Nat} {s r : Str} {e : Expr} (h : expression ind s = .ok e r) : WFExpr e := by
  obtain ⟨c, -, hc⟩ := eSound_expression h
  exact src_wf hc
example := C18_expression (ind := 0) (s := c!"case f x of\n  A b -> [b, 1]\n  _ -> let y = 2 in (y + b) z") rfl
theorem C18_term {ind : Nat} {s r : Str} {e : Expr} (h : term ind s = .ok e r) : WFExpr e := by
  obtain ⟨c, -, hc⟩ := termF_sound eSound_expression h
  exact src_wf hc
example := C18_term (ind := 0) (s := c!"{ a = f x, b = (1, c) } y") rfl
theorem C18_function {ind : Nat} {s r : Str} {f : Function} (h : function ind s = .ok f r) : WFFunction f := by
  obtain ⟨c, -, hc⟩ := functionF_sound eSound_expression h
  exact src_wf hc
example := C18_function (ind := 0) (s := c!"f : Int -> a\nf x =\n  g x \"s\"\n\nh = 1") rfl

example : expression 0 c!"case f x of\n  (1, _) -> a.b\n  _ -> { r | x = y }" =
    .ok (.Case (.Application (.Variable [c!"f"]) (.Variable [c!"x"]))
      [(.Tuple [.Integer c!"1", .Variable [c!"_"]], .Access (.Variable [c!"a"]) [c!"b"]),
       (.Variable [c!"_"], .RecordUpdate c!"r" [(c!"x", .Variable [c!"y"])])]) [] := rfl

/-- Well-formedness is a real restriction. -/
example (e : Expr) : ¬ WFExpr (.Let [] e) := by
  intro h; cases h with | let_ h => exact h rfl
example (e : Expr) : ¬ WFExpr (.Case e []) := by
  intro h; cases h with | case_ _ h => exact h rfl
example (e : Expr) : ¬ WFExpr (.Lambda [] e) := by
  intro h; cases h with | lambda h => exact h rfl
example (e : Expr) (ns : List Name) : ¬ WFExpr (.Access (.List [e]) ns) := by
  intro h; cases h
example (a b : Expr) : ¬ WFExpr (.BinOp (.Variable [c!"="]) a b) := by
  intro h
  cases h with
  | binop h =>
    rcases h with h | ⟨⟨-, -, h⟩, -⟩
    · exact absurd h (by decide)
    · exact h (by decide)
example (e : Expr) : ¬ WFEntry (.LetBinding (.Integer c!"1") e) := by
  intro h; cases h with | binding h => cases h
example : ¬ WFExpr (.Integer c!"") := by
  intro h
  cases h with
  | int h => obtain ⟨s, d, e, -, h, -⟩ := h; exact h (List.append_eq_nil_iff.1 e.symm).2

/-! ### C08 (expressions) -/

/-- C08, expressions: no reserved word is a name in an expression, except `as` as an operator. -/
theorem C08_expression {ind : Nat} {s r : Str} {e : Expr} (h : expression ind s = .ok e r) :
    ∀ n ∈ exprNames e, n ∉ keywords := free_expr (C18_expression h)
example : c!"y" ∉ keywords := C08_expression (ind := 0) (s := c!"\\x -> f [y]") rfl c!"y" (by decide)
theorem C08_term {ind : Nat} {s r : Str} {e : Expr} (h : term ind s = .ok e r) :
    ∀ n ∈ exprNames e, n ∉ keywords := free_expr (C18_term h)
example : c!"y" ∉ keywords := C08_term (ind := 0) (s := c!"(x, y.z)") rfl c!"y" (by decide)
theorem C08_function {ind : Nat} {s r : Str} {f : Function} (h : function ind s = .ok f r) :
    ∀ n ∈ functionNames f, n ∉ keywords := free_function (C18_function h)
example : c!"g" ∉ keywords := C08_function (ind := 0) (s := c!"f : a\nf x = g x") rfl c!"g" (by decide)
theorem C08_type {ind : Nat} {s r : Str} {t : Ty} (h : typeAnnotation ind s = .ok t r) :
    ∀ n ∈ tyNames t, n ∉ keywords := by
  obtain ⟨c, -, hc⟩ := typeAnnotation_sound h
  exact free_ty (tySrc_wf hc)
example : c!"Int" ∉ keywords := C08_type (ind := 0) (s := c!"List Int -> { x : a }") rfl c!"Int" (by decide)

example : (expression 0 c!"f { a = .b } (x.c + y)" = .ok (.Application (.Application (.Variable [c!"f"])
    (.Record [(c!"a", .AccessFunction c!"b")]))
    (.BinOp (.Variable [c!"+"]) (.Access (.Variable [c!"x"]) [c!"c"]) (.Variable [c!"y"]))) []) ∧
    exprNames (.Application (.Application (.Variable [c!"f"]) (.Record [(c!"a", .AccessFunction c!"b")]))
    (.BinOp (.Variable [c!"+"]) (.Access (.Variable [c!"x"]) [c!"c"]) (.Variable [c!"y"]))) =
    [c!"f", c!"a", c!"b", c!"+", c!"x", c!"c", c!"y"] :=
  ⟨rfl, by simp [exprNames, fieldNames]⟩
/-- `as` is the exception, and type variables are not checked. -/
example : expression 0 c!"x as y" = .ok (.BinOp (.Variable [c!"as"]) (.Variable [c!"x"]) (.Variable [c!"y"])) [] ∧
    typeAnnotation 0 c!"type" = .ok (.TypeVariable c!"type") [] := ⟨rfl, rfl⟩

/-! ### C21 (expressions) -/

/-- C21, expressions: the text consumed is a layout of the returned tree: exactly its tokens in
order, with gaps, white space and redundant parentheses between them. -/
theorem C21_expression {ind : Nat} {s r : Str} {e : Expr} (h : expression ind s = .ok e r) :
    ∃ c, s = c ++ r ∧ Src False ind (.expr e) c := eSound_expression h
example := C21_expression (ind := 0) (s := c!"case f x of\n  A b -> [b, 1]\n  _ -> let y = 2 in (y + b) z") rfl
theorem C21_term {ind : Nat} {s r : Str} {e : Expr} (h : term ind s = .ok e r) :
    ∃ c, s = c ++ r ∧ Src False ind (.term e) c := termF_sound eSound_expression h
example := C21_term (ind := 0) (s := c!"{ a = f x, b = (1, c) } y") rfl
theorem C21_function {ind : Nat} {s r : Str} {f : Function} (h : function ind s = .ok f r) :
    ∃ c, s = c ++ r ∧ Src False ind (.fn f) c := functionF_sound eSound_expression h
example := C21_function (ind := 0) (s := c!"f : Int -> a\nf x =\n  g x \"s\"\n\nh = 1") rfl

example : function 0 c!"f : Int -> Int\nf x =\n    x + 1\n" =
    .ok (.mk (some ⟨c!"f", .TypeApplication (.TypeConstructor [c!"Int"] []) (.TypeConstructor [c!"Int"] [])⟩)
      (.mk c!"f" [.Variable [c!"x"]] (.BinOp (.Variable [c!"+"]) (.Variable [c!"x"]) (.Integer c!"1")))) c!"\n" := rfl

/-! ### C23 -/

/-- C23: every layout of an expression parses to that expression and stops at its end. -/
theorem C23_expression {ind : Nat} {e : Expr} {c r : Str} (h : Src True ind (.expr e) c) (hr : Stop ind r) :
    expression ind (c ++ r) = .ok e r := expression_complete h hr
theorem C23_term {ind : Nat} {e : Expr} {c r : Str} (h : Src True ind (.term e) c) (hr : TermStop r) :
    term ind (c ++ r) = .ok e r := term_complete h hr
theorem C23_function {ind : Nat} {f : Function} {c r : Str} (h : Src True ind (.fn f) c) (hr : Stop ind r) :
    function ind (c ++ r) = .ok f r := function_complete h hr

/-- C23: the same for an expression in a place where less may follow: within brackets, and before a
keyword, the layout may be one that could not be followed by a further line. -/
theorem C23_place {ind j : Nat} {e : Expr} {c r : Str} (h : SrcAt True ind j (.expr e) c) (hj : j ≤ ind + 1)
    (hr : StopAt j r) : expression ind (c ++ r) = .ok e r := src_complete h hj r hr

/-- C23: every well-formed expression is the result of some text, at every indentation the code can represent. -/
theorem C23_exists {e : Expr} (h : WFExpr e) (ind : Nat) (hi : ind < 4294967296) :
    ∃ c, Src True ind (.expr e) c ∧ ∀ r, Stop ind r → expression ind (c ++ r) = .ok e r := by
  obtain ⟨c, hc⟩ := (expr_text h ind hi).expr
  exact ⟨c, hc, fun r hr => C23_expression hc hr⟩
theorem C23_exists_function {f : Function} (h : WFFunction f) (ind : Nat)
    (hi : ind < 4294967296) :
    ∃ c, Src True ind (.fn f) c ∧ ∀ r, Stop ind r → function ind (c ++ r) = .ok f r := by
  obtain ⟨c, hc⟩ := function_text h ind hi
  exact ⟨c, hc, fun r hr => C23_function hc hr⟩

/-- C23: the expressions the parser can return are exactly the well-formed ones. -/
theorem C23_exactly (e : Expr) :
    WFExpr e ↔ ∃ ind s r, expression ind s = .ok e r := by
  constructor
  · intro hw
    obtain ⟨c, -, hc⟩ := C23_exists hw 0 (by decide)
    exact ⟨0, _, _, hc [] (stop_nil 0)⟩
  · rintro ⟨ind, s, r, h⟩
    exact C18_expression h

/-- `f (1)⏎      x` at indentation 4, followed by the next declaration. -/
theorem ex_app : Src True 4 (.expr (.Application (.Application (.Variable [c!"f"]) (.Integer c!"1")) (.Variable [c!"x"])))
    c!"f (1) -- one\n      x" :=
  .eApp (.app (c := c!"f") (cs := c!" (1) -- one\n      x") (es := [.Integer c!"1", .Variable [c!"x"]]) (ex_var 4 ex_f)
    (.args (g := c!" ") (c := c!"(1)") (gapTxt_space 4 .GT) (.closed (.parens (c := c!"1") (ex_term (.int ex_one))))
      (.args (g := c!" -- one\n      ") (c := c!"x") (cs := []) (i := 6)
        ⟨[⟨1, some c!" one"⟩], 6, rfl, by decide, by simp [Line.ok], .inr ⟨by simp, rfl, by decide⟩⟩ (ex_var 4 ex_x) .args0)))

example : expression 4 (c!"f (1) -- one\n      x" ++ c!"\ny = 1") =
    .ok (.Application (.Application (.Variable [c!"f"]) (.Integer c!"1")) (.Variable [c!"x"])) c!"\ny = 1" :=
  C23_expression ex_app ex_stop

/-- `case x of 1 -> y` on one line, in a place where no further line at its own indentation follows. -/
theorem ex_inline {ind j : Nat} (hj : j ≤ ind) :
    SrcAt True ind j (.expr (.Case (.Variable [c!"x"]) [(.Integer c!"1", .Variable [c!"y"])])) c!"case x of 1 -> y" :=
  .case_ (g1 := c!" ") (c := c!"x") (g2 := c!" ") (g3 := c!" ") (d := c!"1 -> y") (ds := []) (i := ind)
    (gapTxt_space _ _) (ex_term (ex_var _ ex_x)) (gapTxt_space _ _) (gapTxt_space _ _) (fun _ => hj)
    (.branch (c := c!"1") (g1 := c!" ") (g2 := c!" ") (d := c!"y") (ex_term (.int ex_one)) (gapTxt_space _ _)
      (gapTxt_space _ _) (by simp) (ex_term (ex_var _ ex_y))) .branches0

/-- Within brackets, at any indentation, whatever follows the bracket. -/
example (ind : Nat) (r : Str) : term ind (c!"(" ++ c!"case x of 1 -> y" ++ c!")" ++ r) =
    .ok (.Case (.Variable [c!"x"]) [(.Integer c!"1", .Variable [c!"y"])]) r :=
  closed_complete (.parens (ex_inline (Nat.zero_le _)))
/-- At indentation 4, followed by a declaration at column 0. -/
example : expression 4 (c!"case x of 1 -> y" ++ c!"\ny = 1") =
    .ok (.Case (.Variable [c!"x"]) [(.Integer c!"1", .Variable [c!"y"])]) c!"\ny = 1" :=
  C23_place (ex_inline (j := 4) (by decide)) (by decide)
    ⟨next_cons.2 (by decide), .inr ⟨[⟨0, none⟩], ⟨0, none⟩, c!"y = 1",
      ⟨rfl, by decide, by simp [Line.ok], by simp [Line.ok], .inl ⟨rfl, next_cons.2 (by decide), by simp⟩⟩,
      .inr ⟨by simp, .inl (by decide)⟩⟩⟩

/-- A tree with a nested case to which `C23_exists` applies. -/
theorem ex_case : WFExpr (.Case (.Variable [c!"x"]) [(.Integer c!"1", .Lambda [.Variable [c!"y"]] (.String c!"a\\n"))]) :=
  .case_ (.var (.inl ⟨_, rfl, .inl ex_x⟩)) (by simp)
    (by simp only [List.mem_singleton, forall_eq]; exact .int ex_one)
    (by
      simp only [List.mem_singleton, forall_eq]
      exact .lambda (by simp) (by simp only [List.mem_singleton, forall_eq]; exact .var (.inl ⟨_, rfl, .inl ex_y⟩))
        (.string (.inr (by decide))))
example : ∃ c, ∀ r, Stop 7 r → expression 7 (c ++ r) =
    .ok (.Case (.Variable [c!"x"]) [(.Integer c!"1", .Lambda [.Variable [c!"y"]] (.String c!"a\\n"))]) r := by
  obtain ⟨c, -, h⟩ := C23_exists ex_case 7 (by decide)
  exact ⟨c, h⟩

/-! ### C25 (expressions) -/

/-- C25, expressions: a text is a layout of at most one expression. -/
theorem C25_unambiguous {ind : Nat} {e e' : Expr} {c : Str} (h : Src True ind (.expr e) c)
    (h' : Src True ind (.expr e') c) : e = e' := by
  have k := C23_expression h (stop_nil ind)
  rw [C23_expression h' (stop_nil ind)] at k
  simp only [Res.ok.injEq] at k
  exact k.1.symm

/-- C25, expressions: two layouts parse to the same tree iff they are layouts of the same tree. -/
theorem C25_expression {i j : Nat} {e e' : Expr} {c d r r' : Str} (hc : Src True i (.expr e) c)
    (hd : Src True j (.expr e') d) (hr : Stop i r) (hr' : Stop j r') :
    (∃ v, expression i (c ++ r) = .ok v r ∧ expression j (d ++ r') = .ok v r') ↔ e = e' := by
  rw [C23_expression hc hr, C23_expression hd hr']
  constructor
  · rintro ⟨v, h1, h2⟩
    simp only [Res.ok.injEq, and_true] at h1 h2
    rw [h1, h2]
  · rintro rfl; exact ⟨e, rfl, rfl⟩

/-- Redundant parentheses, a comment and a line break do not change the tree. -/
example : ∃ v, expression 4 (c!"f (1) -- one\n      x" ++ []) = .ok v [] ∧
    expression 0 (c!"f 1 x" ++ []) = .ok v [] :=
  (C25_expression ex_app (.eApp (.app (c := c!"f") (cs := c!" 1 x") (es := [.Integer c!"1", .Variable [c!"x"]]) (ex_var 0 ex_f)
    (.args (g := c!" ") (c := c!"1") (gapTxt_space 0 .GT) (.int ex_one)
      (.args (g := c!" ") (c := c!"x") (cs := []) (gapTxt_space 0 .GT) (ex_var 0 ex_x) .args0))))
    (stop_nil 4) (stop_nil 0)).2 rfl

/-! ### C15 -/

/-- An argument with the gap before it. -/
structure Arg (ind : Nat) where
  gap : Str
  text : Str
  arg : Expr
  gapOk : ∃ i, GapTxt ind .GT i gap
  textOk : Src True ind (.term arg) text

theorem args_src {ind : Nat} (as : List (Arg ind)) :
    Src True ind (.args (as.map (·.arg))) (as.flatMap fun a => a.gap ++ a.text) := by
  induction as with
  | nil => exact .args0
  | cons a as ih =>
    obtain ⟨i, h⟩ := a.gapOk
    exact .args h a.textOk ih

/-- C15: `f a1 ... an` is the left-nested application, whatever gaps stand between the terms. -/
theorem C15_left_nested {ind : Nat} {f : Expr} {c r : Str} (hf : Src True ind (.term f) c) (as : List (Arg ind))
    (hr : Stop ind r) :
    expression ind (c ++ (as.flatMap fun a => a.gap ++ a.text) ++ r) =
      .ok ((as.map (·.arg)).foldl .Application f) r :=
  C23_expression (.eApp (.app hf (args_src as))) hr

/-- C15: the result for no arguments, and for one more. -/
example (f : Expr) : ([] : List Expr).foldl .Application f = f := rfl
example (f x : Expr) (xs : List Expr) :
    (xs ++ [x]).foldl .Application f = .Application (xs.foldl .Application f) x := by simp

example : expression 0 (c!"f" ++ c!" x y 1" ++ []) = .ok (.Application (.Application (.Application
    (.Variable [c!"f"]) (.Variable [c!"x"])) (.Variable [c!"y"])) (.Integer c!"1")) [] :=
  C15_left_nested (ex_var 0 ex_f)
    [⟨c!" ", c!"x", _, ⟨_, gapTxt_space 0 .GT⟩, ex_var 0 ex_x⟩, ⟨c!" ", c!"y", _, ⟨_, gapTxt_space 0 .GT⟩, ex_var 0 ex_y⟩,
     ⟨c!" ", c!"1", _, ⟨_, gapTxt_space 0 .GT⟩, .int ex_one⟩] (stop_nil 0)

/-! ### C16 -/

/-- An operator and the operand after it, with the space around the operator. -/
structure Operand (ind : Nat) where
  gap : Str
  op : Name
  white : Str
  text : Str
  operand : Expr
  gapOk : ∃ i, GapTxt ind .GTE i gap
  opOk : InfixOp op
  whiteOk : Whites white ∧ white ≠ []
  /-- operands are terms or applications -/
  textOk : Src True ind (.app operand) text

/-- `a op1 (b op2 (c ...))` -/
def rightTree {ind : Nat} : Expr → List (Operand ind) → Expr
  | a, [] => a
  | a, o :: os => .BinOp (.Variable [o.op]) a (rightTree o.operand os)

theorem operands_src {ind : Nat} (os : List (Operand ind)) {a : Expr} {c : Str} (h : Src True ind (.app a) c) :
    Src True ind (.expr (rightTree a os)) (c ++ (os.flatMap fun o => o.gap ++ o.op ++ o.white ++ o.text)) := by
  induction os generalizing a c with
  | nil => rw [List.flatMap_nil, List.append_nil]; exact .eApp h
  | cons o os ih =>
    obtain ⟨i, hg⟩ := o.gapOk
    have := SrcAt.binop (j := ind + 1) h hg o.opOk o.whiteOk.1 o.whiteOk.2 (ih o.textOk)
    rw [rightTree]
    simpa only [List.flatMap_cons, List.append_assoc] using this

/-- C16: operators nest to the right in source order, whatever operators they are. -/
theorem C16_right_nested {ind : Nat} {a : Expr} {c r : Str} (ha : Src True ind (.app a) c) (os : List (Operand ind))
    (hr : Stop ind r) :
    expression ind (c ++ (os.flatMap fun o => o.gap ++ o.op ++ o.white ++ o.text) ++ r) = .ok (rightTree a os) r :=
  C23_expression (operands_src os ha) hr

/-- `x * y + 1` is `x * (y + 1)`. -/
example : expression 0 (c!"x" ++ c!" * y + 1" ++ []) = .ok (.BinOp (.Variable [c!"*"]) (.Variable [c!"x"])
    (.BinOp (.Variable [c!"+"]) (.Variable [c!"y"]) (.Integer c!"1"))) [] :=
  C16_right_nested (.app (es := []) (cs := []) (ex_var 0 ex_x) .args0)
    [⟨c!" ", c!"*", c!" ", c!"y", .Variable [c!"y"], ⟨_, gapTxt_space 0 .GTE⟩, .inr ⟨⟨by simp, by decide, by decide⟩, by simp⟩,
      ⟨whites_space, by simp⟩, .app (es := []) (cs := []) (ex_var 0 ex_y) .args0⟩,
     ⟨c!" ", c!"+", c!" ", c!"1", .Integer c!"1", ⟨_, gapTxt_space 0 .GTE⟩, ex_plus,
      ⟨whites_space, by simp⟩, .app (es := []) (cs := []) (.int ex_one) .args0⟩] (stop_nil 0)

/-! ### C11 (terms) -/

/-- C11: digits followed by a dot and a digit make a float. -/
theorem C11_term_float {ind : Nat} {n r : Str} (h : FloatText n) (hr : Next (fun c => ¬ Digit c) r) :
    term ind (n ++ r) = .ok (.Float n) r := float_term h hr
/-- C11: digits not followed by a dot and a digit make an integer. -/
theorem C11_term_integer {ind : Nat} {n r : Str} (h : IntText n) (hr : Next (fun c => ¬ Digit c) r)
    (hd : ∀ c t, r = '.' :: c :: t → ¬ Digit c) : term ind (n ++ r) = .ok (.Integer n) r := int_term h hr hd

example : term 0 (c!"-12.50" ++ c!".1") = .ok (.Float c!"-12.50") c!".1" :=
  C11_term_float ⟨c!"-", c!"12", c!"50", rfl, by simp [Sign], ⟨by simp, by decide⟩, ⟨by simp, by decide⟩⟩
    (next_cons.2 (by decide))
example : term 0 (c!"1" ++ c!".x") = .ok (.Integer c!"1") c!".x" :=
  C11_term_integer ex_one (next_cons.2 (by decide)) (by rintro c t h; cases h; decide)

/-! ### C28 (expressions) -/

/-- C28: parentheses directly around an expression leave no trace. -/
theorem C28_parens {ind : Nat} {e : Expr} {c : Str} (h : SrcAt True ind 0 (.expr e) c) (r : Str) :
    term ind (c!"(" ++ c ++ c!")" ++ r) = .ok e r := closed_complete (.parens h)

/-- C28: white space inside the parentheses makes a one-element tuple. -/
theorem C28_tuple {ind : Nat} {e : Expr} {w1 c w2 : Str} (h : SrcAt True ind 0 (.expr e) c) (h1 : Whites w1)
    (h2 : Whites w2) (hne : w1 ++ w2 ≠ []) (r : Str) :
    term ind (c!"(" ++ w1 ++ c ++ w2 ++ c!")" ++ r) = .ok (.Tuple [e]) r :=
  closed_complete (.tuple1 h1 h2 hne h)

example : term 0 (c!"(" ++ c!"x" ++ c!")" ++ c!"y") = .ok (.Variable [c!"x"]) c!"y" := C28_parens (ex_term (ex_var 0 ex_x)) _
example : term 0 (c!"(" ++ [] ++ c!"x" ++ c!" " ++ c!")" ++ c!"y") = .ok (.Tuple [.Variable [c!"x"]]) c!"y" :=
  C28_tuple (ex_term (ex_var 0 ex_x)) (by simp [Whites]) whites_space (by simp) _

/-! ### C37 (expressions) -/

/-- C37: a layout of something in brackets or quotes parses to its tree whatever follows. -/
theorem C37_closed {ind : Nat} {e : Expr} {c : Str} (h : Src True ind (.closed e) c) (r : Str) :
    term ind (c ++ r) = .ok e r := closed_complete h

example (r : Str) : term 0 (c!"[x,1]" ++ r) = .ok (.List [.Variable [c!"x"], .Integer c!"1"]) r :=
  C37_closed (.list (g1 := []) (g2 := []) (c := c!"x") (cs := c!",1") (.inl rfl) (ex_term (ex_var 0 ex_x))
    (.items (g1 := []) (g2 := []) (c := c!"1") (cs := []) (.inl rfl) (.inl rfl) (ex_term (.int ex_one)) .items0) (.inl rfl)) r

/-- The empty string and operators in parentheses are not closed in this sense. -/
example : term 0 (c!"\"\"" ++ c!"\"a\"\"\"") = .ok (.String c!"a") [] ∧
    term 0 (c!"(+)" ++ c!".x") = .ok (.Access (.Variable [c!"+"]) [c!"x"]) [] := ⟨rfl, rfl⟩

/-! ### C26 -/

/-- A gap with a line break ends in that many spaces. -/
theorem Spec.GapTxt.column {ind i : Nat} {ir : IR} {g : Str} (h : GapTxt ind ir i g) (hn : '\n' ∈ g) :
    ∃ g' n, g = g' ++ '\n' :: sp n ∧ i = n % 4294967296 ∧ Rel ir i ind := by
  obtain ⟨ls, n, rfl, -, -, h⟩ := h
  rcases h with ⟨rfl, -⟩ | ⟨hne, h1, h2⟩
  · simp only [gapText, Line.text, commentText, List.append_nil] at hn
    exact absurd (mem_sp hn) (by decide)
  · refine (?_ : ∃ g', gapText ls ⟨n, none⟩ = g' ++ '\n' :: sp n).elim fun g' e => ⟨g', n, e, h1, h2⟩
    clear hn h1 h2
    induction ls with
    | nil => exact absurd rfl hne
    | cons l ls ih =>
      cases ls with
      | nil => exact ⟨l.text, by simp [gapText, Line.text, commentText]⟩
      | cons l' ls =>
        obtain ⟨g', e⟩ := ih (by simp)
        exact ⟨l.text ++ '\n' :: g', by rw [gapText, e, List.append_assoc]; rfl⟩

/-- A gap without a line break consists of spaces. -/
theorem Spec.GapTxt.noLine {ind i : Nat} {ir : IR} {g : Str} (h : GapTxt ind ir i g) (hn : '\n' ∉ g) :
    i = ind ∧ SpacesTxt g := by
  obtain ⟨ls, n, rfl, h0, -, h⟩ := h
  rcases h with ⟨rfl, rfl⟩ | ⟨hne, h1, h2⟩
  · refine ⟨rfl, h0, fun c hc => ?_⟩
    simp only [gapText, Line.text, commentText, List.append_nil] at hc
    exact mem_sp hc
  · cases ls with
    | nil => exact absurd rfl hne
    | cons l ls => exact absurd (by simp [gapText]) hn

/-- A part of a block after the first: the gap before it and its text. -/
def Aligned (i : Nat) (k : α → Cat) (p : Str × Str × α) : Prop :=
  Src False i (k p.2.2) p.2.1 ∧ p.1 ≠ [] ∧
    ('\n' ∈ p.1 → ∃ g' n, p.1 = g' ++ '\n' :: sp n ∧ n % 4294967296 = i)

theorem aligned_entries {i j : Nat} {ls : List LetEntry} {cs : Str} (h : SrcAt False i j (.entries ls) cs) :
    ∃ ps : List (Str × Str × LetEntry), ls = ps.map (·.2.2) ∧ cs = ps.flatMap (fun p => p.1 ++ p.2.1) ∧
      ∀ p ∈ ps, Aligned i .entry p := by
  generalize hk : Cat.entries ls = k at h
  induction h generalizing ls with
  | entries0 => cases hk; exact ⟨[], rfl, rfl, by simp⟩
  | @entries ind j _ l ls g c cs hg _ hc _ _ ih =>
    cases hk
    obtain ⟨ps, rfl, rfl, hp⟩ := ih rfl
    refine ⟨(g, c, l) :: ps, rfl, by simp, List.forall_mem_cons.2 ⟨⟨hc.any, ?_, fun h => ?_⟩, hp⟩⟩
    · exact hg.choose_spec.choose_spec.2.1
    · obtain ⟨g', n, e, h1, h2⟩ := hg.column h
      exact ⟨g', n, e, by rw [← h1]; exact h2⟩
  | _ => cases hk

theorem aligned_branches {i j : Nat} {bs : List (Expr × Expr)} {cs : Str} (h : SrcAt False i j (.branches bs) cs) :
    ∃ ps : List (Str × Str × (Expr × Expr)), bs = ps.map (·.2.2) ∧ cs = ps.flatMap (fun p => p.1 ++ p.2.1) ∧
      ∀ p ∈ ps, Aligned i .branch p := by
  generalize hk : Cat.branches bs = k at h
  induction h generalizing bs with
  | branches0 => cases hk; exact ⟨[], rfl, rfl, by simp⟩
  | @branches ind j _ l ls g c cs hg _ hc _ _ ih =>
    cases hk
    obtain ⟨ps, rfl, rfl, hp⟩ := ih rfl
    refine ⟨(g, c, l) :: ps, rfl, by simp, List.forall_mem_cons.2 ⟨⟨hc.any, ?_, fun h => ?_⟩, hp⟩⟩
    · exact hg.choose_spec.choose_spec.2.1
    · obtain ⟨g', n, e, h1, h2⟩ := hg.column h
      exact ⟨g', n, e, by rw [← h1]; exact h2⟩
  | _ => cases hk

/-- Where a block starts: at the column `i` of its first part if that stands on a new line, at the current
indentation otherwise. -/
def BlockStart (ind i : Nat) (g : Str) : Prop :=
  ('\n' ∉ g ∧ SpacesTxt g ∧ i = ind) ∨ ∃ g' n, g = g' ++ '\n' :: sp n ∧ i = n % 4294967296 ∧ ind ≤ i

theorem Spec.GapTxt.blockStart {ind i : Nat} {g : Str} (h : GapTxt ind .GTE i g) : BlockStart ind i g := by
  by_cases hn : '\n' ∈ g
  · obtain ⟨g', n, e, h1, h2⟩ := h.column hn
    exact .inr ⟨g', n, e, h1, h2⟩
  · exact .inl ⟨hn, (h.noLine hn).2, (h.noLine hn).1⟩

/-- C26: every entry of an accepted `let` that starts on a new line, except perhaps the first, starts
at the column `i` of the block. -/
theorem C26_let {ind : Nat} {t r : Str} {e : Expr} (ht : Next (fun c => ¬ IdentChar c) t)
    (h : expression ind (c!"let" ++ t) = .ok e r) :
    ∃ (i : Nat) (g c tl : Str) (l : LetEntry) (ps : List (Str × Str × LetEntry)) (b : Expr),
      e = .Let (l :: ps.map (·.2.2)) b ∧ t = g ++ c ++ ps.flatMap (fun p => p.1 ++ p.2.1) ++ tl ∧
      BlockStart ind i g ∧ Src False i (.entry l) c ∧ ∀ p ∈ ps, Aligned i .entry p := by
  rw [expression_let ht] at h
  obtain ⟨i, i2, i3, g1, l, c, ls, cs, g2, g3, b, d, rfl, e1, hg1, hc, hcs, hg2, hg3, hd⟩ :=
    letExpression_inv eSound_expression h
  obtain ⟨ps, rfl, rfl, hp⟩ := aligned_entries hcs
  refine ⟨i, g1, c, g2 ++ c!"in" ++ g3 ++ d ++ r, l, ps, b, rfl, ?_, hg1.blockStart, hc, hp⟩
  simp only [List.append_assoc] at e1 ⊢
  exact List.append_cancel_left e1
example := C26_let (ind := 0) (t := c!"\n  x = 1\n  y =\n    x\nin x + y") (next_cons.2 (by decide)) rfl

/-- C26: every branch of an accepted `case` that starts on a new line, except perhaps the first, starts
at the column `i` of the block. -/
theorem C26_case {ind : Nat} {t r : Str} {e : Expr} (ht : Next (fun c => ¬ IdentChar c) t)
    (h : expression ind (c!"case" ++ t) = .ok e r) :
    ∃ (i : Nat) (hd g c : Str) (a : Expr) (b : Expr × Expr) (ps : List (Str × Str × (Expr × Expr))),
      e = .Case a (b :: ps.map (·.2.2)) ∧ t = hd ++ c!"of" ++ g ++ c ++ ps.flatMap (fun p => p.1 ++ p.2.1) ++ r ∧
      BlockStart ind i g ∧ Src False i (.branch b) c ∧ ∀ p ∈ ps, Aligned i .branch p := by
  rw [expression_case ht] at h
  obtain ⟨i1, i2, i, g1, a, c, g2, g3, b, d, bs, ds, rfl, e1, hg1, hc, hg2, hg3, hd, hds⟩ :=
    caseExpression_inv eSound_expression h
  obtain ⟨ps, rfl, rfl, hp⟩ := aligned_branches hds
  refine ⟨i, g1 ++ c ++ g2, g3, d, a, b, ps, rfl, ?_, hg3.blockStart, hd, hp⟩
  simp only [List.append_assoc] at e1 ⊢
  exact List.append_cancel_left e1
example := C26_case (ind := 0) (t := c!" x of\n  A ->\n    1\n  _ -> 2\nz") (next_cons.2 (by decide)) rfl

example : expression 0 (c!"let" ++ c!"\n  x = 1\n  y = x\nin y") =
    .ok (.Let [.LetBinding (.Variable [c!"x"]) (.Integer c!"1"), .LetBinding (.Variable [c!"y"]) (.Variable [c!"x"])]
      (.Variable [c!"y"])) [] := rfl
example : expression 0 (c!"case" ++ c!" x of\n  1 -> x\n  _ -> y") =
    .ok (.Case (.Variable [c!"x"]) [(.Integer c!"1", .Variable [c!"x"]), (.Variable [c!"_"], .Variable [c!"y"])]) [] := rfl
/-- A branch to the left of the block is not part of it; to the right it is an error or an argument. -/
example : expression 0 (c!"case" ++ c!" x of\n  1 -> x\n _ -> y") =
    .ok (.Case (.Variable [c!"x"]) [(.Integer c!"1", .Variable [c!"x"])]) c!"\n _ -> y" := rfl

/-! ### C27 -/

theorem args_columns {ind j : Nat} {es : List Expr} {cs : Str} (h : SrcAt False ind j (.args es) cs) :
    ∃ ps : List (Str × Str × Expr), es = ps.map (·.2.2) ∧ cs = ps.flatMap (fun p => p.1 ++ p.2.1) ∧
      ∀ p ∈ ps, Src False ind (.term p.2.2) p.2.1 ∧ p.1 ≠ [] ∧
        ('\n' ∈ p.1 → ∃ g' n, p.1 = g' ++ '\n' :: sp n ∧ ind < n % 4294967296) := by
  generalize hk : Cat.args es = k at h
  induction h generalizing es with
  | args0 => cases hk; exact ⟨[], rfl, rfl, by simp⟩
  | @args ind j _ l ls g c cs hg hc _ _ ih =>
    cases hk
    obtain ⟨ps, rfl, rfl, hp⟩ := ih rfl
    refine ⟨(g, c, l) :: ps, rfl, by simp, List.forall_mem_cons.2 ⟨⟨hc.any, ?_, fun h => ?_⟩, hp⟩⟩
    · exact hg.choose_spec.choose_spec.2.1
    · obtain ⟨g', n, e, h1, h2⟩ := hg.column h
      exact ⟨g', n, e, by rw [← h1]; exact h2⟩
  | _ => cases hk

/-- C27: an argument on a new line stands to the right of the current indentation. -/
theorem C27_arguments {ind : Nat} {s r : Str} {e : Expr} (h : applicationOrVar expression ind s = .ok e r) :
    ∃ (f : Expr) (c : Str) (ps : List (Str × Str × Expr)), e = (ps.map (·.2.2)).foldl .Application f ∧
      s = c ++ ps.flatMap (fun p => p.1 ++ p.2.1) ++ r ∧ Src False ind (.term f) c ∧
      ∀ p ∈ ps, Src False ind (.term p.2.2) p.2.1 ∧ p.1 ≠ [] ∧
        ('\n' ∈ p.1 → ∃ g' n, p.1 = g' ++ '\n' :: sp n ∧ ind < n % 4294967296) := by
  obtain ⟨c, rfl, hc⟩ := applicationOrVar_sound eSound_expression h
  cases hc with
  | app h1 h2 =>
    obtain ⟨ps, rfl, rfl, hp⟩ := args_columns h2
    exact ⟨_, _, ps, rfl, rfl, h1, hp⟩
example := C27_arguments (ind := 2) (s := c!"f x\n    (y z)\n  w") rfl

/-- C27: a token on a new line that is not to the right of the indentation ends the application. -/
theorem C27_ends {ind n : Nat} {e : Expr} {c t : Str} {ls : List Line} (h : Src True ind (.app e) c)
    (hl : ls ≠ []) (hok : ∀ l ∈ ls, l.ok) (ht : NoGap t) (hn : n % 4294967296 ≤ ind) :
    applicationOrVar expression ind (c ++ (gapText ls ⟨n, none⟩ ++ t)) = .ok e (gapText ls ⟨n, none⟩ ++ t) := by
  have hg : Gap (gapText ls ⟨n, none⟩ ++ t) ls ⟨n, none⟩ t := by
    refine ⟨rfl, ?_, hok, by simp [Line.ok], .inl ⟨rfl, ht⟩⟩
    cases ls with
    | nil => exact absurd rfl hl
    | cons l ls => simp [gapText]
  refine src_complete h _ ⟨?_, ?_⟩
  · have : GapTxt 0 .GTE (n % 4294967296) (gapText ls ⟨n, none⟩) :=
      ⟨ls, n, rfl, hg.nonempty, hok, .inr ⟨hl, rfl, Nat.zero_le _⟩⟩
    exact termStop_gap this
  · rw [preceded_apply]
    rcases err_or_ok (fun k => cons_gap k ind .GT) (gapText ls ⟨n, none⟩ ++ t) with e | ⟨i, u, e, -⟩
    · rw [e]; rfl
    · exfalso
      obtain ⟨-, h' | ⟨-, h1, h2⟩⟩ := (gap_of_gap hg ind .GT).1 e
      · exact hl h'.1
      · simp only [Rel, column, if_true] at h2
        omega

example : applicationOrVar expression 2 c!"f x\n   y\n  1" =
    .ok (.Application (.Application (.Variable [c!"f"]) (.Variable [c!"x"])) (.Variable [c!"y"])) c!"\n  1" := rfl
example : applicationOrVar expression 2 (c!"f" ++ (c!"\n  " ++ c!"x")) = .ok (.Variable [c!"f"]) (c!"\n  " ++ c!"x") :=
  C27_ends (ls := [⟨0, none⟩]) (n := 2) (t := c!"x") (.app (es := []) (cs := []) (ex_var 2 ex_f) .args0) (by simp)
    (by simp [Line.ok]) (noGap_of_ne (by decide)) (by decide)

/-! ### C29 -/

/-- C29: a record update whose last field is directly followed by the brace is rejected. -/
theorem C29_no_gap {ind : Nat} {n g1 g2 w c cs : Str} {f : Name × Expr} {fs : List (Name × Expr)}
    (h1 : OptGapTxt ind .GTE g1) (hn : LoName n) (h2 : OptGapTxt ind .GTE g2) (hw : Whites w)
    (hc : Src True ind (.upd f) c) (hcs : Src True ind (.upds fs) cs) (r : Str) :
    term ind (c!"{" ++ g1 ++ n ++ g2 ++ c!"|" ++ w ++ c ++ cs ++ c!"}" ++ r) = .err := by
  obtain ⟨k1, k2⟩ := src_complete hcs _ (stop_optGap (ind' := ind) (ir := .GTE) (g := []) (r := r) (x := '}')
    (.inl rfl) (by decide))
  have hs := (sepList_iff cons_updateSep cons_updateField).2 (.inr ⟨f, fs, _, rfl, src_complete hc _ k1, k2, by
    rw [preceded_apply, updateSep_err (.inl rfl) (by decide) (by decide)]; rfl⟩)
  simp only [List.append_assoc, List.cons_append, List.nil_append] at hs ⊢
  exact update_no_gap h1 hn h2 hw (src_starts hc trivial).notWhite hs

example : term 0 (c!"{" ++ c!" " ++ c!"x" ++ c!" " ++ c!"|" ++ c!" " ++ c!"y=1" ++ [] ++ c!"}" ++ []) = .err :=
  C29_no_gap (f := (c!"y", .Integer c!"1")) (.inr ⟨_, gapTxt_space 0 .GTE⟩) ex_x (.inr ⟨_, gapTxt_space 0 .GTE⟩)
    whites_space (.upd (w1 := []) (w2 := []) (c := c!"1") ex_y (by simp [Whites]) (by simp [Whites])
      (ex_term (.int ex_one))) .upds0 []
/-- With a space it is accepted. -/
example : term 0 c!"{ x | y=1 }" = .ok (.RecordUpdate c!"x" [(c!"y", .Integer c!"1")]) [] := rfl
example := C23_term (ind := 4) (e := .Variable [c!"x"]) (c := c!"x") (r := c!" y") (ex_var 4 ex_x) (by exact next_cons.2 (by decide))
example := C25_unambiguous ex_app ex_app
example := C23_exists_function (C18_function (ind := 0) (s := c!"f x =\n  x + 1") rfl) 4 (by decide)
/-- `f x =⏎      x` at indentation 4, followed by the next declaration. -/
theorem ex_defn : Src True 4 (.fn (.mk none (.mk c!"f" [.Variable [c!"x"]] (.Variable [c!"x"])))) c!"f x =\n      x" :=
  .fn (.defn (m := c!"f") (cs := c!" x") (w := c!" ") (g := c!"\n      ") (d := c!"x") (i := 6) (.lo ex_f)
    (.fargs (w := c!" ") (c := c!"x") (cs := []) spacesTxt_space (ex_var 4 ex_x) .fargs0) spacesTxt_space
    ⟨[⟨0, none⟩], 6, rfl, by decide, by simp [Line.ok], .inr ⟨by simp, rfl, by decide⟩⟩ (ex_term (ex_var _ ex_x)))
example := C23_function ex_defn ex_stop

end ElmParser
