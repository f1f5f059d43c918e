import Verif.Props.Pieces

/-! Property C60: the parser accepts exactly the texts of the documented grammar. -/
namespace ElmParser
open Spec

/-! ### C60 -/

/-- C60: in front of anything that ends a type, a text is read as the type `t` iff it is a layout of `t`. -/
theorem C60_type {ind : Nat} {t : Ty} {c r : Str} (hr : TyStop ind r) :
    type_ ind (c ++ r) = .ok t r ↔ TySrc ind (.ty t) c := by
  refine ⟨fun h => ?_, fun h => type_complete h hr⟩
  obtain ⟨d, e, hd⟩ := type_sound h
  rwa [List.append_cancel_right e]
@[inherit_doc C60_type]
theorem C60_annotation {ind : Nat} {t : Ty} {c r : Str} (hr : TyStop ind r) :
    typeAnnotation ind (c ++ r) = .ok t r ↔ TySrc ind (.ann t) c := by
  refine ⟨fun h => ?_, fun h => typeAnnotation_complete h hr⟩
  obtain ⟨d, e, hd⟩ := typeAnnotation_sound h
  rwa [List.append_cancel_right e]

/-- C60: in front of anything that ends an expression, a text is read as the expression `e`, which is without `let` and
`case`, iff it is a layout of `e`. -/
theorem C60_expression {st : Prop} {ind : Nat} {e : Expr} {c r : Str} (he : Flat e) (hr : Stop ind r) :
    expression ind (c ++ r) = .ok e r ↔ Src st ind (.expr e) c := by
  refine ⟨fun h => ?_, fun h => expression_complete (src_flat h he) hr⟩
  obtain ⟨d, ed, hd⟩ := eSound_expression h
  rw [List.append_cancel_right ed]
  exact src_flat hd he
@[inherit_doc C60_expression]
theorem C60_function {st : Prop} {ind : Nat} {f : Function} {c r : Str} (hf : FlatFunction f) (hr : Stop ind r) :
    function ind (c ++ r) = .ok f r ↔ Src st ind (.fn f) c := by
  refine ⟨fun h => ?_, fun h => function_complete (src_flat h hf) hr⟩
  obtain ⟨d, ed, hd⟩ := functionF_sound eSound_expression h
  rw [List.append_cancel_right ed]
  exact src_flat hd hf

/-- C60: a text is read, to its end, as the declaration `x`, which is without `let` and `case`, iff it is a layout of `x`. -/
theorem C60_statement {st : Prop} {x : Statement} {c : Str} (hx : FlatStatement x) :
    statement c = .ok x [] ↔ StmtText st x c := by
  constructor
  · intro h
    obtain ⟨d, e, hd⟩ := statement_text h hx
    rw [List.append_nil] at e
    subst e
    exact hd.imp (fun h => stmtSrc_flat h hx) id
  · intro h
    exact (stmtText_file (h.imp (fun h => stmtSrc_flat h hx) id)).1

/-- C60: a text is a file with the single declaration `x` iff it is, up to white space around it, a layout of `x`; a line
comment ends at the end of its line. -/
theorem C60_single {st : Prop} {x : Statement} {s : Str} (hx : FlatStatement x) :
    file s = .ok [x] [] ↔ ∃ w c w', s = w ++ c ++ w' ∧ Whites w ∧ Whites w' ∧
      (StmtSrc st x c ∨ ∃ t, x = .Comment t ∧ '\n' ∉ t ∧ c = c!"--" ++ t ∧ Next (· = '\n') w') := by
  constructor
  · intro h
    obtain ⟨-, w, d, rfl, hw, hd⟩ := file_sound h
    cases hd with
    | line h1 h2 h3 =>
      cases h3 with
      | last h4 => exact ⟨w, _, _, by simp, hw, h4, .inr ⟨_, rfl, h1, rfl, h2⟩⟩
      | sep _ _ _ h' => exact absurd rfl (stmts_ne h')
    | stmt h1 h2 =>
      cases h2 with
      | last h3 => exact ⟨w, _, _, by simp, hw, h3, .inl (stmtSrc_flat h1 hx)⟩
      | sep _ _ _ h' => exact absurd rfl (stmts_ne h')
  · rintro ⟨w, c, w', rfl, hw, hw', h | ⟨t, rfl, ht, rfl, hn⟩⟩
    · exact file_complete ⟨w, c ++ w', by simp, hw, .stmt (stmtSrc_flat h hx) (.last hw')⟩
    · exact file_complete ⟨w, c!"--" ++ t ++ w', by simp, hw, .line ht hn (.last hw')⟩

/-! Cases. -/

/-- A layout with a line break, a comment and parentheses. -/
example : Src True 0 (.expr (.Application (.Variable [c!"f"]) (.Variable [c!"x"]))) c!"f\n  --a\n  (x)" := by
  refine (C60_expression (c := c!"f\n  --a\n  (x)") (r := []) (.app .var .var) (stop_nil 0)).1 ?_
  rfl
/-- The grammar is a real restriction: a text that is not read is not a layout. -/
example : ¬ Src False 2 (.expr (.Application (.Variable [c!"f"]) (.Variable [c!"x"]))) c!"f\n  x" := by
  intro h
  have := (C60_expression (r := []) (.app .var .var) (stop_nil 2)).2 h
  revert this
  rw [show expression 2 (c!"f\n  x" ++ []) = .ok (.Variable [c!"f"]) c!"\n  x" from rfl]
  intro h
  cases h
example : TySrc 0 (.ann (.TypeApplication (.TypeConstructor [c!"A"] [.TypeVariable c!"b"]) (.TypeVariable c!"c"))) c!"A b\n->\nc" :=
  (C60_annotation (c := c!"A b\n->\nc") (r := []) (tyStop_nil 0)).1 rfl
example : StmtSrc True (.ImportStatement [c!"A"] none none) c!"import A" := by
  rcases (C60_statement (st := True) (x := .ImportStatement [c!"A"] none none) (c := c!"import A") trivial).1 rfl with h | ⟨t, h, -⟩
  · exact h
  · cases h
example : file c!"\n f x = x\n" = .ok [.Function (.mk none (.mk c!"f" [.Variable [c!"x"]] (.Variable [c!"x"])))] [] := by rfl
example := C60_type (ind := 0) (t := .TypeTuple [.TypeVariable c!"a"]) (c := c!"( a)") (r := []) (tyStop_nil 0)
example : Src True 0 (.fn (.mk none (.mk c!"f" [.Variable [c!"x"]] (.Variable [c!"x"])))) c!"f x =\n  x" :=
  (C60_function (r := []) (by exact ⟨by simp; exact .var, .var⟩) (stop_nil 0)).1 rfl
example := (C60_single (st := True) (x := .ImportStatement [c!"A"] none none) (s := c!"\n import A\n") trivial).1 rfl

end ElmParser
