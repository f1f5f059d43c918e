import Verif.Proofs.Loops

/-! C01 and C02: every parser of the public API is total and consumes a prefix. -/
namespace ElmParser

/-- **C01.** Parsing any text as a file gives `Err` or `Ok` (with nothing left): never a
divergence, never an index panic. -/
theorem C01_file_total (s : Str) : file s = .err ∨ ∃ v, file s = .ok v [] := by
  rcases good_file (s.length + 1) s (Nat.lt_succ_self _) with h | ⟨v, r, h, -⟩
  · exact .inl h
  · right
    have h' := h
    unfold file at h'
    obtain ⟨r1, w, -, h2⟩ := terminated_eq_ok.1 h'
    refine ⟨v, ?_⟩
    cases r1 with
    | nil =>
      simp only [eof, Res.ok.injEq] at h2
      rw [h, ← h2.2]
    | cons c r1 => simp [eof] at h2

/-- Both outcomes occur. -/
example : (∃ v, file c!"a = 1" = .ok v []) ∧ file c!"a = " = .err := ⟨⟨_, rfl⟩, rfl⟩

/-- **C01** for the other entry points of the API. -/
theorem C01_statements_total (s : Str) : statements s ≠ .div ∧ statements s ≠ .panic := by
  rcases err_or_ok cons_statements s with h | ⟨v, r, h, -⟩ <;> simp [h]
@[inherit_doc C01_statements_total]
theorem C01_statement_total (s : Str) : statement s ≠ .div ∧ statement s ≠ .panic := by
  rcases err_or_ok cons_statement s with h | ⟨v, r, h, -⟩ <;> simp [h]
@[inherit_doc C01_statements_total]
theorem C01_expression_total (ind : Nat) (s : Str) :
    expression ind s ≠ .div ∧ expression ind s ≠ .panic := by
  rcases err_or_ok (fun k => cons_expression k ind) s with h | ⟨v, r, h, -⟩ <;> simp [h]
@[inherit_doc C01_statements_total]
theorem C01_term_total (ind : Nat) (s : Str) : term ind s ≠ .div ∧ term ind s ≠ .panic := by
  rcases err_or_ok (fun k => cons_term k ind) s with h | ⟨v, r, h, -⟩ <;> simp [h]
@[inherit_doc C01_statements_total]
theorem C01_function_total (ind : Nat) (s : Str) :
    function ind s ≠ .div ∧ function ind s ≠ .panic := by
  rcases err_or_ok (fun k => cons_function k ind) s with h | ⟨v, r, h, -⟩ <;> simp [h]
@[inherit_doc C01_statements_total]
theorem C01_type_total (ind : Nat) (s : Str) : type_ ind s ≠ .div ∧ type_ ind s ≠ .panic := by
  rcases err_or_ok (fun k => cons_type_ k ind) s with h | ⟨v, r, h, -⟩ <;> simp [h]
@[inherit_doc C01_statements_total]
theorem C01_typeAnnotation_total (ind : Nat) (s : Str) :
    typeAnnotation ind s ≠ .div ∧ typeAnnotation ind s ≠ .panic := by
  rcases err_or_ok (fun k => cons_typeAnnotation k ind) s with h | ⟨v, r, h, -⟩ <;> simp [h]

/-- **C01**, recursion depth: however large the recursion budget, a budget of the length of
the text plus one gives the same answer, so calls of `expression` never nest deeper. -/
theorem C01_expression_depth (n ind : Nat) (s : Str) (h : s.length < n) :
    exprN n ind s = exprN (s.length + 1) ind s := by
  rw [exprN_eq_expression ind h, expression_apply]
example := C01_expression_depth 9 0 c!"f [x]" (by decide)
@[inherit_doc C01_expression_depth]
theorem C01_type_depth (n ind : Nat) (s : Str) (h : s.length < n) :
    (tyN n).type_ ind s = (tyN (s.length + 1)).type_ ind s ∧
    (tyN n).typeAnnotation ind s = (tyN (s.length + 1)).typeAnnotation ind s := by
  rw [← type_apply, ← typeAnnotation_apply]
  exact ⟨le_eq ((tyLe_tyRec n).ty ind) (ne_div_of_good ((goodRec_tyN n).ty ind) h),
    le_eq ((tyLe_tyRec n).ann ind) (ne_div_of_good ((goodRec_tyN n).ann ind) h)⟩
example := C01_type_depth 9 0 c!"List a" (by decide)

/-- The bound is not trivial: a smaller budget does run out. -/
example : exprN 1 0 c!"((a))" = .div ∧ exprN 6 0 c!"((a))" = .ok (.Variable [c!"a"]) [] :=
  ⟨rfl, rfl⟩

/-- **C02.** What a parser leaves is a proper suffix of what it was given. -/
theorem C02_statements {s r : Str} {v : List Statement} (h : statements s = .ok v r) :
    ∃ c, c ≠ [] ∧ s = c ++ r := by
  obtain ⟨c, e⟩ := suffix_of_ok (fun k => (cons_statements k).good) h
  have := lt_of_ok cons_statements h
  exact ⟨c, by rintro rfl; simp at e; subst e; omega, e.symm⟩
example := C02_statements (s := c!"import A as B exposing (f, T(C, D))\n\n-- c\nf : Int -> a\nf x =\n  g x.y \"s\"\n") rfl
@[inherit_doc C02_statements]
theorem C02_statement {s r : Str} {v : Statement} (h : statement s = .ok v r) :
    ∃ c, c ≠ [] ∧ s = c ++ r := by
  obtain ⟨c, e⟩ := suffix_of_ok (fun k => (cons_statement k).good) h
  have := lt_of_ok cons_statement h
  exact ⟨c, by rintro rfl; simp at e; subst e; omega, e.symm⟩
example := C02_statement (s := c!"import A.B as C exposing (f, T(..), (+))\n\nx = 1") rfl
@[inherit_doc C02_statements]
theorem C02_expression {ind : Nat} {s r : Str} {v : Expr} (h : expression ind s = .ok v r) :
    ∃ c, c ≠ [] ∧ s = c ++ r := by
  obtain ⟨c, e⟩ := suffix_of_ok (fun k => (cons_expression k ind).good) h
  have := lt_of_ok (fun k => cons_expression k ind) h
  exact ⟨c, by rintro rfl; simp at e; subst e; omega, e.symm⟩
example := C02_expression (ind := 0) (s := c!"f (\\x -> x.a) [1, 2] + y\n)") rfl
@[inherit_doc C02_statements]
theorem C02_term {ind : Nat} {s r : Str} {v : Expr} (h : term ind s = .ok v r) :
    ∃ c, c ≠ [] ∧ s = c ++ r := by
  obtain ⟨c, e⟩ := suffix_of_ok (fun k => (cons_term k ind).good) h
  have := lt_of_ok (fun k => cons_term k ind) h
  exact ⟨c, by rintro rfl; simp at e; subst e; omega, e.symm⟩
example := C02_term (ind := 0) (s := c!"{ a = f x, b = (1, c) } y") rfl
@[inherit_doc C02_statements]
theorem C02_function {ind : Nat} {s r : Str} {v : Function} (h : function ind s = .ok v r) :
    ∃ c, c ≠ [] ∧ s = c ++ r := by
  obtain ⟨c, e⟩ := suffix_of_ok (fun k => (cons_function k ind).good) h
  have := lt_of_ok (fun k => cons_function k ind) h
  exact ⟨c, by rintro rfl; simp at e; subst e; omega, e.symm⟩
example := C02_function (ind := 0) (s := c!"f : Int -> a\nf x =\n  g x \"s\"\n\nh = 1") rfl
@[inherit_doc C02_statements]
theorem C02_type {ind : Nat} {s r : Str} {v : Ty} (h : type_ ind s = .ok v r) :
    ∃ c, c ≠ [] ∧ s = c ++ r := by
  obtain ⟨c, e⟩ := suffix_of_ok (fun k => (cons_type_ k ind).good) h
  have := lt_of_ok (fun k => cons_type_ k ind) h
  exact ⟨c, by rintro rfl; simp at e; subst e; omega, e.symm⟩
example := C02_type (ind := 0) (s := c!"Dict (Maybe a) { x : Int } -> c") rfl
@[inherit_doc C02_statements]
theorem C02_typeAnnotation {ind : Nat} {s r : Str} {v : Ty}
    (h : typeAnnotation ind s = .ok v r) : ∃ c, c ≠ [] ∧ s = c ++ r := by
  obtain ⟨c, e⟩ := suffix_of_ok (fun k => (cons_typeAnnotation k ind).good) h
  have := lt_of_ok (fun k => cons_typeAnnotation k ind) h
  exact ⟨c, by rintro rfl; simp at e; subst e; omega, e.symm⟩
example := C02_typeAnnotation (ind := 0) (s := c!"(a -> List b) -> { x : Int } -> c\n=") rfl
/-- **C02** A successful file parse leaves nothing. -/
theorem C02_file {s r : Str} {v : List Statement} (h : file s = .ok v r) : r = [] := by
  rcases C01_file_total s with e | ⟨w, e⟩ <;> rw [h] at e <;> simp at e
  exact e.2
example := C02_file (s := c!"import A as B exposing (f, T(C, D))\n\n-- c\nf : Int -> a\nf x =\n  g x.y \"s\"\n") rfl

example : statement c!"import A\nx" = .ok (.ImportStatement [c!"A"] none none) c!"\nx" := rfl
example : typeAnnotation 0 c!"A -> b rest" = .ok
    (.TypeApplication (.TypeConstructor [c!"A"] []) (.TypeVariable c!"b")) c!" rest" := rfl

end ElmParser
