import Verif.Proofs.Nest
import Verif.Props.TypeCost

/-! C50: how deep the calls of the recursive parsers nest, hence how much stack they need. -/
namespace ElmParser
open Spec

/-- `d` is the largest number of calls of `expression` that are active at once while `expression`
runs on `s`: the parser in which calls nested deeper than `n` abort the run (`exprN n`; an abort
is `.div`, which no alternative or repetition catches) is not aborted exactly when `d ≤ n`. -/
def Depth (ind : Nat) (s : Str) (d : Nat) : Prop := ∀ n, exprN n ind s ≠ .div ↔ d ≤ n

/-- The same for `type_` and `type_annotation`, which call each other. -/
def TyDepth (ind : Nat) (s : Str) (d : Nat) : Prop := ∀ n, (tyN n).type_ ind s ≠ .div ↔ d ≤ n

theorem Depth.le {ind d n : Nat} {s : Str} (h : Depth ind s d) (hn : exprN n ind s ≠ .div) : d ≤ n :=
  (h n).1 hn
theorem Depth.lt {ind d n : Nat} {s : Str} (h : Depth ind s d) (hn : exprN n ind s = .div) : n < d := by
  apply Nat.lt_of_not_le
  intro hd
  exact (h n).2 hd hn

theorem least {P : Nat → Prop} (n : Nat) (hn : P n) (h0 : ¬ P 0) (hm : ∀ m, P m → P (m + 1)) :
    ∃ d, 1 ≤ d ∧ d ≤ n ∧ ∀ m, P m ↔ d ≤ m := by
  have up : ∀ {a b}, P a → a ≤ b → P b := fun ha hab => by
    induction hab with
    | refl => exact ha
    | step _ ih => exact hm _ ih
  induction n with
  | zero => exact absurd hn h0
  | succ n ih =>
    by_cases h : P n
    · obtain ⟨d, h1, h2, h3⟩ := ih h
      exact ⟨d, h1, by omega, h3⟩
    · exact ⟨n + 1, by omega, by omega, fun m =>
        ⟨fun hp => Nat.lt_of_not_le fun hle => h (up hp hle), fun hle => up hn hle⟩⟩

theorem div_succ {ind n : Nat} {s : Str} (h : exprN n ind s ≠ .div) : exprN (n + 1) ind s ≠ .div := by
  rwa [← le_eq (exprLe_succ n ind) h]

/-- C50: the depth exists, is at least one, and is at most one more than the number of openers of
the text: opening brackets, operator characters, and starts of `let`, `case`, `if` and `as`. -/
theorem C50_openers (ind : Nat) (s : Str) : ∃ d, Depth ind s d ∧ 1 ≤ d ∧ d ≤ openers s + 1 := by
  obtain ⟨d, h1, h2, h3⟩ := least (P := fun n => exprN n ind s ≠ .div) (openers s + 1)
    (nd_exprN _ ind s (Nat.lt_succ_self _)).1 (fun h => h rfl) (fun _ => div_succ)
  exact ⟨d, h3, h1, h2⟩

/-- C50: there is only one depth. -/
theorem C50_unique {ind d d' : Nat} {s : Str} (h : Depth ind s d) (h' : Depth ind s d') : d = d' :=
  Nat.le_antisymm ((h _).1 ((h' _).2 (Nat.le_refl _))) ((h' _).1 ((h _).2 (Nat.le_refl _)))

theorem openers_le (s : Str) : openers s ≤ s.length := by
  induction s with
  | nil => exact Nat.le_refl _
  | cons c t ih => simp only [openers, List.length_cons]; split <;> omega

/-- C50: the depth is at most the length of the text plus one. -/
theorem C50_length {ind d : Nat} {s : Str} (h : Depth ind s d) : d ≤ s.length + 1 := by
  obtain ⟨d', h', -, h2⟩ := C50_openers ind s
  rw [C50_unique h h']
  have := openers_le s
  omega

/-- C50: a budget of the depth gives the result of the unlimited parser. -/
theorem C50_budget {ind d n : Nat} {s : Str} (h : Depth ind s d) (hn : d ≤ n) :
    exprN n ind s = expression ind s := le_eq (exprLe_expression n ind) ((h n).2 hn)

/-- C50: the calls nest at least as deep as the tree they return. -/
theorem C50_tree {ind d : Nat} {s r : Str} {e : Expr} (h : Depth ind s d) (he : expression ind s = .ok e r) :
    nest e ≤ d := by
  rw [← C50_budget h (Nat.le_refl d)] at he
  exact rt_exprN d ind s e r he

theorem nest_pos (e : Expr) : 1 ≤ nest e := by
  match e with
  | .Application f x =>
    have := nest_pos f
    simp only [nest]; omega
  | .Character _ | .String _ | .Integer _ | .Float _ | .Variable _ | .List _ | .Tuple _
  | .Access _ _ | .AccessFunction _ | .Record _ | .RecordUpdate _ _ | .If _ _ _ | .Let _ _
  | .Case _ _ | .Lambda _ _ | .BinOp _ _ _ => simp only [nest]; omega

theorem nest_rightTree {ind : Nat} (a : Expr) (os : List (Operand ind)) :
    os.length + 1 ≤ nest (rightTree a os) := by
  induction os generalizing a with
  | nil => exact nest_pos a
  | cons o os ih =>
    have := ih o.operand
    simp only [rightTree, nest, List.length_cons]; omega

/-- C50: a chain of `n` operators nests at least `n + 1` calls although it has no brackets. -/
theorem C50_operators {ind d : Nat} {a : Expr} {c r : Str} (ha : Src True ind (.app a) c)
    (os : List (Operand ind)) (hr : Stop ind r)
    (h : Depth ind (c ++ (os.flatMap fun o => o.gap ++ o.op ++ o.white ++ o.text) ++ r) d) :
    os.length + 1 ≤ d :=
  Nat.le_trans (nest_rightTree a os) (C50_tree h (C16_right_nested ha os hr))

/-- `x + x + … + x` with `n` operators -/
def sum : Nat → Str
  | 0 => c!"x"
  | n + 1 => c!"x + " ++ sum n

def addX (ind : Nat) : Operand ind :=
  ⟨c!" ", c!"+", c!" ", c!"x", .Variable [c!"x"], ⟨_, gapTxt_space ind .GTE⟩, ex_plus,
    ⟨whites_space, by simp⟩, .app (es := []) (cs := []) (ex_var ind ex_x) .args0⟩

theorem sum_eq (ind n : Nat) : sum n =
    c!"x" ++ ((List.replicate n (addX ind)).flatMap fun o => o.gap ++ o.op ++ o.white ++ o.text) ++ [] := by
  induction n with
  | zero => rfl
  | succ n ih => rw [sum, ih]; simp [List.replicate_succ, addX]

theorem openers_sum (n : Nat) : openers (sum n) = n := by
  induction n with
  | zero => rfl
  | succ n ih =>
    show openers ('x' :: ' ' :: '+' :: ' ' :: sum n) = _
    simp only [openers, ih]
    simp [atOpener, isOpChar, List.isPrefixOf]
    omega

/-- C50: a sum of `n + 1` variables nests exactly `n + 1` calls. -/
theorem C50_sum (ind n : Nat) : Depth ind (sum n) (n + 1) := by
  obtain ⟨d, h, -, h2⟩ := C50_openers ind (sum n)
  have h3 : n + 1 ≤ d := by
    have h' := h
    rw [sum_eq ind n] at h'
    have := C50_operators (.app (es := []) (cs := []) (ex_var ind ex_x) .args0) _ (stop_nil ind) h'
    rwa [List.length_replicate] at this
  rw [openers_sum] at h2
  obtain rfl : d = n + 1 := by omega
  exact h

/-- If the first term of an expression is aborted, so is the expression. -/
theorem div_of_term {ind n : Nat} {s : Str} (h : termF (exprN n) ind s = .div) : exprN (n + 1) ind s = .div := by
  show expressionF (exprN n) ind s = .div
  unfold expressionF binary applicationOrVar sepList
  simp only [alt_apply, bind_apply, h]
  rfl

/-- C50: `n` opening parentheses nest exactly `n + 1` calls: the bound by the length is attained. -/
theorem C50_parens (ind n : Nat) : Depth ind (List.replicate n '(') (n + 1) := by
  have hd : exprN n ind (List.replicate n '(') = .div := by
    induction n with
    | zero => rfl
    | succ n ih =>
      apply div_of_term
      rw [List.replicate_succ, termF_paren_of_op (by cases n <;> rfl), alt_apply]
      unfold parens
      rw [delimited_apply, char_cons, andThen_ok, ih]
      rfl
  obtain ⟨d, h, -, -⟩ := C50_openers ind (List.replicate n '(')
  have h1 := h.lt hd
  have h2 := C50_length h
  rw [List.length_replicate] at h2
  obtain rfl : d = n + 1 := by omega
  exact h

/-- C50: without an opener there is no nested call, however long the text. -/
theorem C50_flat {ind : Nat} {s : Str} (hs : openers s = 0) : Depth ind s 1 := by
  obtain ⟨d, h, h1, h2⟩ := C50_openers ind s
  obtain rfl : d = 1 := by omega
  exact h

/-- `[x,x,…,x]` with `n + 1` items -/
def items (n : Nat) : Str := c!"[x" ++ (List.replicate n c!",x").flatten ++ c!"]"

theorem openers_items (n : Nat) : openers (items n) = 1 := by
  have : openers ((List.replicate n c!",x").flatten ++ c!"]") = 0 := by
    induction n with
    | zero => rfl
    | succ n ih =>
      rw [List.replicate_succ, List.flatten_cons, List.append_assoc]
      simp only [List.cons_append, List.nil_append, openers, ih]
      simp [atOpener, isOpChar, List.isPrefixOf]
  show openers ('[' :: 'x' :: ((List.replicate n c!",x").flatten ++ c!"]")) = 1
  simp only [openers, this]
  simp [atOpener, isOpChar, List.isPrefixOf]

/-- C50: a list nests two calls, however many items it has. -/
theorem C50_items (ind n : Nat) : Depth ind (items n) 2 := by
  have hd : exprN 1 ind (items n) = .div := by
    apply div_of_term
    show termF (exprN 0) ind ('[' :: ('x' :: ((List.replicate n c!",x").flatten ++ c!"]"))) = .div
    rw [termF_bracket]
    unfold list
    rw [pmap_apply, delimited_apply, preceded_apply, char_cons, andThen_ok,
      opt_eq_ok.2 (.inr ⟨gap_none (noGap_of_ne (by decide)) _ _, rfl, rfl⟩)]
    rfl
  obtain ⟨d, h, -, h2⟩ := C50_openers ind (items n)
  have h1 := h.lt hd
  rw [openers_items] at h2
  obtain rfl : d = 2 := by omega
  exact h

/-- Concrete depths: an application nests one call, a lambda in a list three. -/
example : Depth 0 c!"f x y z" 1 := C50_flat rfl
example : expression 0 c!"f x y z" = .ok (.Application (.Application (.Application (.Variable [c!"f"])
    (.Variable [c!"x"])) (.Variable [c!"y"])) (.Variable [c!"z"])) [] := rfl
example : sum 3 = c!"x + x + x + x" ∧ Depth 0 c!"x + x + x + x" 4 := ⟨rfl, C50_sum 0 3⟩
example : items 3 = c!"[x,x,x,x]" ∧ Depth 0 c!"[x,x,x,x]" 2 := ⟨rfl, C50_items 0 3⟩
example {d : Nat} (h : Depth 0 c!"[\\x -> x]" d) : 3 ≤ d :=
  C50_tree (e := .List [.Lambda [.Variable [c!"x"]] (.Variable [c!"x"])]) (r := []) h rfl
example : Depth 0 c!"[\\x -> x]" 3 := by
  obtain ⟨d, h, -, -⟩ := C50_openers 0 c!"[\\x -> x]"
  have h1 : 3 ≤ d :=
    C50_tree (e := .List [.Lambda [.Variable [c!"x"]] (.Variable [c!"x"])]) (r := []) h rfl
  have h2 : exprN 3 0 c!"[\\x -> x]" ≠ .div := by
    show Res.ok _ _ ≠ _
    simp
  have := h.le h2
  obtain rfl : d = 3 := by omega
  exact h

/-! ### Types -/

/-- C50: for types the depth exists and is at most one more than the number of `(` and `{`; arrows
and arguments of constructors do not nest calls. -/
theorem C50_type_openers (ind : Nat) (s : Str) : ∃ d, TyDepth ind s d ∧ 1 ≤ d ∧ d ≤ tyOpeners s + 1 := by
  obtain ⟨d, h1, h2, h3⟩ := least (P := fun n => (tyN n).type_ ind s ≠ .div) (tyOpeners s + 1)
    ((ndRec_tyN _).ty ind s (Nat.lt_succ_self _)).1 (fun h => h rfl)
    (fun n h => by rwa [← le_eq ((tyLe_succ n).ty ind) h])
  exact ⟨d, h3, h1, h2⟩

/-- C50: also for annotations. -/
theorem C50_annotation (ind : Nat) (s : Str) : (tyN (tyOpeners s + 1)).typeAnnotation ind s = typeAnnotation ind s :=
  le_eq ((tyLe_tyRec _).ann ind) ((ndRec_tyN _).ann ind s (Nat.lt_succ_self _)).1

/-- C50: the calls nest at least as deep as the type they return. -/
theorem C50_type_tree {ind d : Nat} {s r : Str} {t : Ty} (h : TyDepth ind s d) (ht : type_ ind s = .ok t r) :
    nestTy t ≤ d := by
  have hd := (h d).2 (Nat.le_refl d)
  have e : (tyN d).type_ ind s = type_ ind s := le_eq ((tyLe_tyRec d).ty ind) hd
  rw [← e] at ht
  exact (rt_tyN d).ty ind s t r ht

/-- C50: `n` opening parentheses nest exactly `n + 1` calls. -/
theorem C50_type_parens (ind n : Nat) : TyDepth ind (List.replicate n '(') (n + 1) := by
  have hd : (tyN n).type_ ind (List.replicate n '(') = .div := by
    induction n with
    | zero => rfl
    | succ n ih =>
      show typeF (tyN n) ind (List.replicate (n + 1) '(') = .div
      rw [List.replicate_succ, typeF_paren.1, alt_apply]
      unfold typeTuple
      rw [pmap_apply, delimited_apply, preceded_apply, char_cons, andThen_ok,
        opt_eq_ok.2 (.inr ⟨gap_none (by cases n with
          | zero => exact noGap_nil
          | succ n => exact noGap_of_ne (by decide)) _ _, rfl, rfl⟩), andThen_ok]
      unfold sepList
      rw [ih]
      rfl
  obtain ⟨d, h, -, h2⟩ := C50_type_openers ind (List.replicate n '(')
  have h1 : ¬ d ≤ n := fun hle => (h n).2 hle hd
  have h3 : tyOpeners (List.replicate n '(') ≤ n := by
    have := List.countP_le_length (p := fun c => c == '(' || c == '{') (l := List.replicate n '(')
    rwa [List.length_replicate] at this
  obtain rfl : d = n + 1 := by omega
  exact h

example : TyDepth 0 c!"Dict (List a) { x : b }" 2 := by
  obtain ⟨d, h, -, h2⟩ := C50_type_openers 0 c!"Dict (List a) { x : b }"
  have h1 := C50_type_tree (t := .TypeConstructor [c!"Dict"] [.TypeTuple [.TypeConstructor [c!"List"] [.TypeVariable c!"a"]],
    .TypeRecord [(c!"x", .TypeVariable c!"b")]]) (r := []) h rfl
  have h3 : (tyN 2).type_ 0 c!"Dict (List a) { x : b }" ≠ .div := by
    show Res.ok _ _ ≠ _
    simp
  have h4 := (h 2).1 h3
  have h5 : 2 ≤ d := h1
  obtain rfl : d = 2 := by omega
  exact h
example {d : Nat} (h : Depth 0 c!"f x y z" d) : d = 1 := C50_unique h (C50_flat rfl)
example : 4 ≤ (sum 3).length + 1 := C50_length (C50_sum 0 3)
example : exprN 7 0 c!"x + x + x + x" = expression 0 c!"x + x + x + x" := C50_budget (C50_sum 0 3) (by decide)
example : [addX 0, addX 0].length + 1 ≤ 3 :=
  C50_operators (c := c!"x") (r := []) (.app (es := []) (cs := []) (ex_var 0 ex_x) .args0) [addX 0, addX 0] (stop_nil 0) (C50_sum 0 2)

end ElmParser
