import Verif.Proofs.ReplaceType
import Verif.Props.Pieces
import Verif.Props.Indent

/-! C73: a part of an expression can be replaced in the text. -/
namespace ElmParser
open Spec

theorem flat_of_fill {e : Expr} : (K : ExprCtx) → Flat (K.fill e) → Flat e
  | .here, h => h
  | .list _ k _, h => by cases h with | list h => exact flat_of_fill k (h _ (by simp))
  | .tuple _ k _, h => by cases h with | tuple h => exact flat_of_fill k (h _ (by simp))
  | .record b n k a, h => by cases h with | record h => exact flat_of_fill k (h (n, k.fill e) (by simp))
  | .update _ b n k a, h => by cases h with | update h => exact flat_of_fill k (h (n, k.fill e) (by simp))
  | .ifTest k _ _, h => by cases h with | if_ h1 h2 h3 => exact flat_of_fill k h1
  | .ifThen _ k _, h => by cases h with | if_ h1 h2 h3 => exact flat_of_fill k h2
  | .ifElse _ _ k, h => by cases h with | if_ h1 h2 h3 => exact flat_of_fill k h3
  | .lambdaArg _ k _ _, h => by cases h with | lambda h1 h2 => exact flat_of_fill k (h1 _ (by simp))
  | .lambdaBody _ k, h => by cases h with | lambda h1 h2 => exact flat_of_fill k h2
  | .function k _, h => by cases h with | app h1 h2 => exact flat_of_fill k h1
  | .argument _ k, h => by cases h with | app h1 h2 => exact flat_of_fill k h2
  | .left _ k _, h => by cases h with | binop h1 h2 h3 => exact flat_of_fill k h2
  | .right _ _ k, h => by cases h with | binop h1 h2 h3 => exact flat_of_fill k h3
  | .letEntry _ _ _ _, h => by cases h
  | .letBody _ _, h => by cases h
  | .caseOf _ _, h => by cases h
  | .caseBranch _ _ _ _, h => by cases h

theorem forall_ctx {α : Type} {P : α → Prop} {b a : List α} {x y : α} (h : ∀ z ∈ b ++ x :: a, P z) (hy : P x → P y) :
    ∀ z ∈ b ++ y :: a, P z := by
  intro z hz
  simp only [List.mem_append, List.mem_cons] at hz h
  rcases hz with hz | rfl | hz
  · exact h z (.inl hz)
  · exact hy (h x (.inr (.inl rfl)))
  · exact h z (.inr (.inr hz))

theorem flat_fill {e e' : Expr} (he : Flat e') : (K : ExprCtx) → Flat (K.fill e) → Flat (K.fill e')
  | .here, _ => he
  | .list _ k _, h => by cases h with | list h => exact .list (forall_ctx h (flat_fill he k))
  | .tuple _ k _, h => by cases h with | tuple h => exact .tuple (forall_ctx h (flat_fill he k))
  | .record b n k a, h => by
    cases h with | record h => exact .record (forall_ctx (P := fun f : Name × Expr => Flat f.2) h (flat_fill he k))
  | .update _ b n k a, h => by
    cases h with | update h => exact .update (forall_ctx (P := fun f : Name × Expr => Flat f.2) h (flat_fill he k))
  | .ifTest k _ _, h => by cases h with | if_ h1 h2 h3 => exact .if_ (flat_fill he k h1) h2 h3
  | .ifThen _ k _, h => by cases h with | if_ h1 h2 h3 => exact .if_ h1 (flat_fill he k h2) h3
  | .ifElse _ _ k, h => by cases h with | if_ h1 h2 h3 => exact .if_ h1 h2 (flat_fill he k h3)
  | .lambdaArg _ k _ _, h => by cases h with | lambda h1 h2 => exact .lambda (forall_ctx h1 (flat_fill he k)) h2
  | .lambdaBody _ k, h => by cases h with | lambda h1 h2 => exact .lambda h1 (flat_fill he k h2)
  | .function k _, h => by cases h with | app h1 h2 => exact .app (flat_fill he k h1) h2
  | .argument _ k, h => by cases h with | app h1 h2 => exact .app h1 (flat_fill he k h2)
  | .left _ k _, h => by cases h with | binop h1 h2 h3 => exact .binop h1 (flat_fill he k h2) h3
  | .right _ _ k, h => by cases h with | binop h1 h2 h3 => exact .binop h1 h2 (flat_fill he k h3)
  | .letEntry _ _ _ _, h => by cases h
  | .letBody _ _, h => by cases h
  | .caseOf _ _, h => by cases h
  | .caseBranch _ _ _ _, h => by cases h

/-- A text that is read as a term without `let` and `case` is a layout of it. -/
theorem term_src {i k : Nat} {d : Str} {e : Expr} (h : term i d = .ok e []) (he : Flat e) : SrcAt True i k (.term e) d := by
  obtain ⟨c, ec, hc⟩ := termF_sound eSound_expression h
  rw [List.append_nil] at ec
  subst ec
  exact term_any (src_flat hc he) k

theorem piece_read {i k : Nat} {d : Str} {e : Expr} (hk : k ≤ i + 1) (h : SrcAt True i k (.expr e) d) :
    expression i d = .ok e [] := by
  have := src_complete h hk [] ⟨next_nil _, .inl noGap_nil⟩
  rwa [List.append_nil] at this

/-! ### C73 -/

/-- C73: let a text be read as an expression without `let` and `case`, and take any part `e` of the tree, other than the
value of a field `{ a }` without `=`.  Then there is a piece of the text which is read as `e` by itself, and when it is
replaced by the text of any term `e'`, the text is read as the tree with `e'` in the place of `e`. -/
theorem C73_expression {ind : Nat} {s r : Str} {K : ExprCtx} {e : Expr} (h : expression ind s = .ok (K.fill e) r)
    (hf : Flat (K.fill e)) (hp : K.Proper e) (hr : Stop ind r) :
    ∃ a d b i, s = a ++ d ++ b ++ r ∧ expression i d = .ok e [] ∧
      ∀ d' e', term i d' = .ok e' [] → Flat e' → expression ind (a ++ d' ++ b ++ r) = .ok (K.fill e') r := by
  obtain ⟨c, rfl, hc⟩ := eSound_expression h
  obtain ⟨a, d, b, i, k, rfl, hk, h1, h2⟩ :=
    src_replace (src_flat (st' := True) hc hf) (Nat.le_refl _) K e hp rfl
  refine ⟨a, d, b, i, by simp, piece_read hk h1, fun d' e' h3 h4 => ?_⟩
  have := expression_complete (h2 d' e' (term_src h3 h4)) hr
  simpa using this

/-- C73: the same for declarations, in arguments and bodies of functions and bodies of ports. -/
theorem C73_declaration {s : Str} {D : DeclCtx} {e : Expr} (h : statement s = .ok (D.fill e) [])
    (hf : FlatStatement (D.fill e)) (hp : D.expr.Proper e) :
    ∃ a d b i, s = a ++ d ++ b ∧ expression i d = .ok e [] ∧
      ∀ d' e', term i d' = .ok e' [] → Flat e' →
        statement (a ++ d' ++ b) = .ok (D.fill e') [] ∧ file (a ++ d' ++ b) = .ok [D.fill e'] [] := by
  obtain ⟨c, ec, hc⟩ := statement_text h hf
  rw [List.append_nil] at ec
  subst ec
  have hc : StmtSrc True (D.fill e) s := by
    rcases hc with hc | ⟨t, ht, -⟩
    · exact hc
    · cases D <;> simp [DeclCtx.fill] at ht
  suffices ∃ a d b i k, s = a ++ (d ++ b) ∧ k ≤ i + 1 ∧ SrcAt True i k (.expr e) d ∧
      ∀ d' e', SrcAt True i k (.term e') d' → StmtSrc True (D.fill e') (a ++ (d' ++ b)) by
    obtain ⟨a, d, b, i, k, rfl, hk, h1, h2⟩ := this
    refine ⟨a, d, b, i, by simp, piece_read hk h1, fun d' e' h3 h4 => ?_⟩
    have := stmtText_file (.inl (h2 d' e' (term_src h3 h4)))
    simpa using this
  cases D with
  | body sg n as k =>
    cases hc with
    | function hc =>
      obtain ⟨a, d, b, i, k, rfl, hk, h1, h2⟩ := (src_replace hc (Nat.le_refl _)).1 sg n as k e hp rfl
      exact ⟨a, d, b, i, k, rfl, hk, h1, fun d' e' h => .function (h2 d' e' h)⟩
  | arg sg n b k a t =>
    cases hc with
    | function hc =>
      obtain ⟨a, d, b, i, k, rfl, hk, h1, h2⟩ := (src_replace hc (Nat.le_refl _)).2 sg n b k a t e hp rfl
      exact ⟨a, d, b, i, k, rfl, hk, h1, fun d' e' h => .function (h2 d' e' h)⟩
  | port n as k =>
    cases hc with
    | @port _ _ _ w1 cs w2 g _ _ h1 h2 h3 h4 h5 h6 =>
      obtain ⟨a, d, b, i, k, rfl, hk, h7, h8⟩ := src_replace h6 (Nat.le_refl _) k e hp rfl
      refine ⟨c!"port" ++ w1 ++ n ++ cs ++ w2 ++ c!"=" ++ g ++ a, d, b, i, k, by simp, hk, h7, fun d' e' h => ?_⟩
      have := StmtSrc.port h1 h2 h3 h4 h5 (h8 d' e' h)
      simpa [DeclCtx.fill] using this

/-- C73: in a text of the documented grammar the same holds for every part, also with `let` and `case`. -/
theorem C73_valid {ind : Nat} {s r : Str} {K : ExprCtx} {e : Expr} (h : Src True ind (.expr (K.fill e)) s)
    (hp : K.Proper e) (hr : Stop ind r) :
    ∃ a d b i, s = a ++ d ++ b ∧ expression i d = .ok e [] ∧
      ∀ d' e', Src True i (.term e') d' → expression ind (a ++ d' ++ b ++ r) = .ok (K.fill e') r := by
  obtain ⟨a, d, b, i, k, rfl, hk, h1, h2⟩ := src_replace h (Nat.le_refl _) K e hp rfl
  refine ⟨a, d, b, i, by simp, piece_read hk h1, fun d' e' h3 => ?_⟩
  have := expression_complete (h2 d' e' (term_any h3 k)) hr
  simpa using this

theorem wrap_term {i : Nat} {d : Str} {e : Expr} (h : expression i d = .ok e []) (he : Flat e) :
    term i (c!"(" ++ d ++ c!")") = .ok e [] := by
  obtain ⟨c, ec, hc⟩ := eSound_expression h
  rw [List.append_nil] at ec
  subst ec
  have h0 : SrcAt True i 0 (.expr e) d := src_lower hc he (Nat.le_refl _)
  have := term_complete (r := []) (.closed (.parens h0)) (next_nil _)
  rwa [List.append_nil] at this

/-- C73: parentheses around any part of an expression do not change the tree. -/
theorem C73_parens {ind : Nat} {s r : Str} {K : ExprCtx} {e : Expr} (h : expression ind s = .ok (K.fill e) r)
    (hf : Flat (K.fill e)) (hp : K.Proper e) (hr : Stop ind r) :
    ∃ a d b, s = a ++ d ++ b ++ r ∧ (∃ i, expression i d = .ok e []) ∧
      expression ind (a ++ (c!"(" ++ d ++ c!")") ++ b ++ r) = expression ind s := by
  obtain ⟨a, d, b, i, h1, h2, h3⟩ := C73_expression h hf hp hr
  have he := flat_of_fill K hf
  exact ⟨a, d, b, h1, ⟨i, h2⟩, by rw [h3 _ e (wrap_term h2 he) he, h]⟩
@[inherit_doc C73_parens]
theorem C73_parens_declaration {s : Str} {D : DeclCtx} {e : Expr} (h : statement s = .ok (D.fill e) [])
    (hf : FlatStatement (D.fill e)) (hp : D.expr.Proper e) :
    ∃ a d b, s = a ++ d ++ b ∧ (∃ i, expression i d = .ok e []) ∧
      statement (a ++ (c!"(" ++ d ++ c!")") ++ b) = statement s := by
  obtain ⟨a, d, b, i, h1, h2, h3⟩ := C73_declaration h hf hp
  have he : Flat e := by
    cases D with
    | body sg n as k => exact flat_of_fill k hf.2
    | arg sg n b k a t => exact flat_of_fill k (hf.1 _ (by simp))
    | port n as k => exact flat_of_fill k hf
  exact ⟨a, d, b, h1, ⟨i, h2⟩, by rw [(h3 _ e (wrap_term h2 he) he).1, h]⟩

/-- C73: a part can be replaced by any expression on one line, in parentheses. -/
theorem C73_substitute {ind : Nat} {s r : Str} {K : ExprCtx} {e : Expr} (h : expression ind s = .ok (K.fill e) r)
    (hf : Flat (K.fill e)) (hp : K.Proper e) (hr : Stop ind r) :
    ∃ a d b, s = a ++ d ++ b ++ r ∧ ∀ t e', expression 0 t = .ok e' [] → '\n' ∉ t → Flat e' →
      expression ind (a ++ (c!"(" ++ t ++ c!")") ++ b ++ r) = .ok (K.fill e') r := by
  obtain ⟨a, d, b, i, h1, -, h3⟩ := C73_expression h hf hp hr
  refine ⟨a, d, b, h1, fun t e' h4 h5 h6 => h3 _ _ (wrap_term ?_ h6) h6⟩
  rw [C72_line_expression h5 i 0, h4]

theorem par_src {i : Nat} {d : Str} {t : Ty} (h : typeParameter tyRec i d = .ok t []) : TySrc i (.par t) d := by
  obtain ⟨c, ec, hc⟩ := typeParameter_sound tySound_tyRec h
  rw [List.append_nil] at ec
  subst ec
  exact hc

theorem ann_read {i : Nat} {d : Str} {t : Ty} (h : TySrc i (.ann t) d) : typeAnnotation i d = .ok t [] := by
  have := typeAnnotation_complete h (tyStop_nil i)
  rwa [List.append_nil] at this

/-- C73: the same for types: any part of a type can be replaced by a type that can be an argument of a constructor. -/
theorem C73_type {ind : Nat} {s r : Str} {K : TyCtx} {t : Ty} (h : typeAnnotation ind s = .ok (K.fill t) r)
    (hr : TyStop ind r) :
    ∃ a d b i, s = a ++ d ++ b ++ r ∧ typeAnnotation i d = .ok t [] ∧
      ∀ d' t', typeParameter tyRec i d' = .ok t' [] → typeAnnotation ind (a ++ d' ++ b ++ r) = .ok (K.fill t') r := by
  obtain ⟨c, rfl, hc⟩ := typeAnnotation_sound h
  obtain ⟨a, d, b, i, rfl, h1, h2⟩ := ty_replace hc K t rfl
  refine ⟨a, d, b, i, by simp, ann_read h1, fun d' t' h3 => ?_⟩
  have := typeAnnotation_complete (h2 d' t' (par_src h3)) hr
  simpa using this

/-- C73: and for the types in declarations: aliases, arguments of constructors, ports and signatures. -/
theorem C73_type_declaration {s : Str} {D : TyDeclCtx} {t : Ty} (h : statement s = .ok (D.fill t) [])
    (hf : FlatStatement (D.fill t)) :
    ∃ a d b i, s = a ++ d ++ b ∧ typeAnnotation i d = .ok t [] ∧
      ∀ d' t', typeParameter tyRec i d' = .ok t' [] →
        statement (a ++ d' ++ b) = .ok (D.fill t') [] ∧ file (a ++ d' ++ b) = .ok [D.fill t'] [] := by
  obtain ⟨c, ec, hc⟩ := statement_text h hf
  rw [List.append_nil] at ec
  subst ec
  have hc : StmtSrc True (D.fill t) s := by
    rcases hc with hc | ⟨t, ht, -⟩
    · exact hc
    · cases D <;> simp [TyDeclCtx.fill] at ht
  suffices ∃ a d b i, s = a ++ (d ++ b) ∧ TySrc i (.ann t) d ∧
      ∀ d' t', TySrc i (.par t') d' → StmtSrc True (D.fill t') (a ++ (d' ++ b)) by
    obtain ⟨a, d, b, i, rfl, h1, h2⟩ := this
    refine ⟨a, d, b, i, by simp, ann_read h1, fun d' t' h3 => ?_⟩
    have := stmtText_file (.inl (h2 d' t' (par_src h3)))
    simpa using this
  cases D with
  | alias t0 K =>
    cases hc with
    | @typeAlias _ _ w1 w2 w3 g _ c d h1 h2 h3 h4 h5 h6 =>
      obtain ⟨a, d, b, i, rfl, h7, h8⟩ := ty_replace h6 K t rfl
      refine ⟨c!"type" ++ w1 ++ c!"alias" ++ w2 ++ c ++ w3 ++ c!"=" ++ g ++ a, d, b, i, by simp, h7, fun d' t' h => ?_⟩
      have := StmtSrc.typeAlias (st := True) h1 h2 h3 h4 h5 (h8 d' t' h)
      simpa [TyDeclCtx.fill] using this
  | port n K =>
    cases hc with
    | @portType _ _ w1 w2 g _ c h1 h2 h3 h4 h5 =>
      obtain ⟨a, d, b, i, rfl, h7, h8⟩ := ty_replace h5 K t rfl
      refine ⟨c!"port" ++ w1 ++ n ++ w2 ++ c!":" ++ g ++ a, d, b, i, by simp, h7, fun d' t' h => ?_⟩
      have := StmtSrc.portType (st := True) h1 h2 h3 h4 (h8 d' t' h)
      simpa [TyDeclCtx.fill] using this
  | signature n K f =>
    cases hc with
    | function hc =>
      cases hc with
      | @fnSig _ _ _ _ _ _ m w g k c1 c h1 h2 h3 h4 h5 h6 =>
        obtain ⟨a, d, b, i, rfl, h7, h8⟩ := ty_replace h4 K t rfl
        refine ⟨m ++ w ++ c!":" ++ g ++ a, d, b ++ '\n' :: (sp k ++ c), i, by simp, h7, fun d' t' h => ?_⟩
        have := StmtSrc.function (SrcAt.fnSig h1 h2 h3 (h8 d' t' h) h5 h6)
        simpa [TyDeclCtx.fill] using this
  | constructor t0 before ns b K a after =>
    simp only [TyDeclCtx.fill] at hc
    generalize hu : before ++ .TypeConstructor ns (b ++ K.fill t :: a) :: after = us at hc
    cases hc with
    | @type_ _ ns' ts us w g1 _ g2 _ c d ds h1 h2 h3 h4 h5 h6 =>
      rcases cons_ctx hu.symm with ⟨rfl, h', rfl⟩ | ⟨b', rfl, h'⟩
      · obtain ⟨x, d, y, i, rfl, h7, h8⟩ := ty_replace h5 (.con ns b K a) t h'
        refine ⟨c!"type" ++ w ++ c ++ g1 ++ c!"=" ++ g2 ++ x, d, y ++ ds, i, by simp, h7, fun d' t' h => ?_⟩
        have := StmtSrc.type_ (st := True) h1 h2 h3 h4 (h8 d' t' h) h6
        simpa [TyDeclCtx.fill] using this
      · obtain ⟨x, e, y, i, rfl, h7, h8⟩ := constructors_replace h6 h'
        refine ⟨c!"type" ++ w ++ c ++ g1 ++ c!"=" ++ g2 ++ d ++ x, e, y, i, by simp, h7, fun d' t' h => ?_⟩
        have := StmtSrc.type_ (st := True) h1 h2 h3 h4 h5 (h8 d' t' h)
        simpa [TyDeclCtx.fill] using this

/-! Cases. -/

/-- `g y` in `f [ g y, 1 ] + z`. -/
def ex_ctx : ExprCtx := .left (.Variable [c!"+"]) (.argument (.Variable [c!"f"]) (.list [] .here [.Integer c!"1"])) (.Variable [c!"z"])
def ex_part : Expr := .Application (.Variable [c!"g"]) (.Variable [c!"y"])
theorem ex_ctx_flat : Flat (ex_ctx.fill ex_part) :=
  .binop .var (.app .var (.list (by simp [ex_part]; exact ⟨.app .var .var, .int⟩))) .var
theorem ex_ctx_read : expression 0 (c!"f [ g y, 1 ] +\n z" ++ c!")") = .ok (ex_ctx.fill ex_part) c!")" := rfl
theorem ex_ctx_stop : Stop 0 c!")" := ⟨next_cons.2 (by decide), .inl (noGap_of_ne (by decide))⟩
example := C73_expression ex_ctx_read ex_ctx_flat trivial ex_ctx_stop
example := C73_parens ex_ctx_read ex_ctx_flat trivial ex_ctx_stop
example := C73_substitute ex_ctx_read ex_ctx_flat trivial ex_ctx_stop
/-- The theorem for this text: the only piece there can be is the right one. -/
example : expression 0 (c!"f [ " ++ c!"\"a\"" ++ c!", 1 ] +\n z" ++ c!")") = .ok (ex_ctx.fill (.String c!"a")) c!")" := rfl
example : expression 0 (c!"f [ " ++ c!"(g y)" ++ c!", 1 ] +\n z" ++ c!")") = .ok (ex_ctx.fill ex_part) c!")" := rfl

/-- The argument `(a, b)` of a function with a signature, and its body. -/
def ex_decl : Str := c!"f : A -> B\nf (a, b) =\n  { a\n   | x = b\n  }"
theorem ex_decl_read : statement ex_decl = .ok (DeclCtx.fill (.arg (some ⟨c!"f", .TypeApplication (.TypeConstructor [c!"A"] [])
    (.TypeConstructor [c!"B"] [])⟩) c!"f" [] (.tuple [.Variable [c!"a"]] .here []) []
    (.RecordUpdate c!"a" [(c!"x", .Variable [c!"b"])])) (.Variable [c!"b"])) [] := rfl
theorem ex_decl_flat : FlatFunction (.mk (some ⟨c!"f", .TypeApplication (.TypeConstructor [c!"A"] [])
    (.TypeConstructor [c!"B"] [])⟩) (.mk c!"f" [.Tuple [.Variable [c!"a"], .Variable [c!"b"]]]
      (.RecordUpdate c!"a" [(c!"x", .Variable [c!"b"])]))) :=
  ⟨by simp; exact .tuple (by simp; exact ⟨.var, .var⟩), .update (by simp; exact .var)⟩
example := C73_declaration ex_decl_read ex_decl_flat trivial
example := C73_parens_declaration ex_decl_read ex_decl_flat trivial
/-- The value of the field in the body. -/
example := C73_declaration (s := ex_decl) (D := .body _ c!"f" [.Tuple [.Variable [c!"a"], .Variable [c!"b"]]]
  (.update c!"a" [] c!"x" .here [])) (e := .Variable [c!"b"]) ex_decl_read ex_decl_flat trivial
/-- The result type in the signature. -/
example := C73_type_declaration (s := ex_decl) (D := .signature c!"f" (.target (.TypeConstructor [c!"A"] []) .here) _)
  (t := .TypeConstructor [c!"B"] []) ex_decl_read ex_decl_flat
/-- In a constructor. -/
example := C73_type_declaration (s := c!"type T a = A | B (List a) Int")
  (D := .constructor _ [.TypeConstructor [c!"A"] []] [c!"B"] [] (.tuple [] (.con [c!"List"] [] .here []) [])
    [.TypeConstructor [c!"Int"] []] []) (t := .TypeVariable c!"a") rfl trivial
example := C73_type (s := c!"{ x : A -> b }") (ind := 0) (r := []) (K := .record [] c!"x" (.source .here (.TypeVariable c!"b")) [])
  (t := .TypeConstructor [c!"A"] []) rfl (tyStop_nil 0)
theorem ex_replace_case : Src True 0 (.expr (.Case (.Variable [c!"x"]) [(.Variable [c!"A"],
    .Application (.Variable [c!"f"]) (.Variable [c!"y"]))])) c!"case x of\n A -> f y" := by
  have hx : Src True 0 (.expr (.Variable [c!"x"])) c!"x" := (C60_expression (r := []) .var (stop_nil 0)).1 rfl
  have hA : Src True 1 (.expr (.Variable [c!"A"])) c!"A" := (C60_expression (r := []) .var (stop_nil 1)).1 rfl
  have hf : Src True 1 (.expr (.Application (.Variable [c!"f"]) (.Variable [c!"y"]))) c!"f y" :=
    (C60_expression (r := []) (.app .var .var) (stop_nil 1)).1 rfl
  exact .case_ (g1 := c!" ") (c := c!"x") (g2 := c!" ") (g3 := c!"\n ") (d := c!"A -> f y") (ds := []) (i := 1)
    (gapTxt_space 0 .GTE) (src_lower hx .var (Nat.le_refl _)) (gapTxt_space 0 .GTE)
    ⟨[⟨0, none⟩], 1, rfl, by decide, by simp [Line.ok], .inr ⟨by simp, rfl, by decide⟩⟩ (fun _ => by decide)
    (.branch (c := c!"A") (g1 := c!" ") (g2 := c!" ") (d := c!"f y") (src_lower hA .var (Nat.le_refl _)) (gapTxt_space 1 .GTE)
      (gapTxt_space 1 .GTE) (fun _ t => by simp) (src_lower hf (.app .var .var) (Nat.le_refl _))) .branches0
/-- In a branch of a `case`. -/
example : ∃ a d b i, c!"case x of\n A -> f y" = a ++ d ++ b ∧ expression i d = .ok (.Variable [c!"y"]) [] ∧
    ∀ d' e', Src True i (.term e') d' → expression 0 (a ++ d' ++ b ++ []) =
      .ok (.Case (.Variable [c!"x"]) [(.Variable [c!"A"], .Application (.Variable [c!"f"]) e')]) [] :=
  C73_valid (K := .caseBranch (.Variable [c!"x"]) [] (.body (.Variable [c!"A"]) (.argument (.Variable [c!"f"]) .here)) [])
    ex_replace_case trivial (stop_nil 0)

/-- C73: the exception: the value of a field without `=` has no text of its own. -/
theorem C73_pun : term 0 c!"{a}" = .ok (ExprCtx.fill (.record [] c!"a" .here []) (.Variable [c!"a"])) [] ∧
    ∀ a d b, c!"{a}" = a ++ d ++ b →
      term 0 (a ++ c!"1" ++ b) ≠ .ok (ExprCtx.fill (.record [] c!"a" .here []) (.Integer c!"1")) [] := by
  refine ⟨rfl, fun a d b h h1 => ?_⟩
  have ha : a = (c!"{a}").take a.length := by rw [h]; simp
  have hb : b = (c!"{a}").drop (3 - b.length) := by
    have hl := congrArg List.length h
    simp at hl
    rw [h, List.append_assoc, List.drop_append, List.drop_append, List.drop_eq_nil_of_le (by omega),
      List.drop_eq_nil_of_le (by omega), show 3 - b.length - a.length - d.length = 0 by omega]
    rfl
  have hl := congrArg List.length h
  simp at hl
  have hm : 3 - b.length ≤ 3 := by omega
  generalize 3 - b.length = m at hb hm
  generalize a.length = n at ha hl
  have hn : n ≤ 3 := by omega
  subst ha hb
  match n, m, hn, hm with
  | 0, 0, _, _ => cases h1
  | 0, 1, _, _ => cases h1
  | 0, 2, _, _ => cases h1
  | 0, 3, _, _ => cases h1
  | 1, 0, _, _ => cases h1
  | 1, 1, _, _ => cases h1
  | 1, 2, _, _ => cases h1
  | 1, 3, _, _ => cases h1
  | 2, 0, _, _ => cases h1
  | 2, 1, _, _ => cases h1
  | 2, 2, _, _ => cases h1
  | 2, 3, _, _ => cases h1
  | 3, 0, _, _ => cases h1
  | 3, 1, _, _ => cases h1
  | 3, 2, _, _ => cases h1
  | 3, 3, _, _ => cases h1

end ElmParser
