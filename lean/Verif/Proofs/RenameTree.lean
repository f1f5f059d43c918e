import Verif.Proofs.RenameTokens
import Verif.Proofs.StmtText

/-! Renaming by a function: the renamed text and the renamed tree are determined. -/
namespace ElmParser
open Spec Spec.Rename

namespace Rn

variable {ρ : Str → Str}

theorem renaming_by (h : Kinds ρ) : Renaming (By ρ) := by
  rintro w w' ⟨hw, rfl⟩
  exact h.1 w hw

/-! ### Texts -/

theorem run_eq {w s : Str} (h : ∀ c ∈ w, IdentChar c) (hs : Ends s) :
    (w ++ s).takeWhile (fun c => decide (IdentChar c)) = w ∧ (w ++ s).dropWhile (fun c => decide (IdentChar c)) = s :=
  takeWhile_run (fun c hc => by simpa using h c hc) (ends_false (f := fun c => decide (IdentChar c)) (by simp) hs)

theorem takeWhile_mem {p : Char → Bool} {c : Char} : ∀ {s : Str}, c ∈ s.takeWhile p → p c = true
  | d :: s, h => by
    rw [List.takeWhile_cons] at h
    split at h
    next hd =>
      rcases List.mem_cons.1 h with rfl | h
      · exact hd
      · exact takeWhile_mem h
    next => cases h

/-- After a `'` that does not begin a literal the literal at this place is the same, too. -/
theorem literal_same {s t : Str} (h : Text (By ρ) 5 s t) :
    ∃ t', t = s.take (literalLength s) ++ t' ∧ Text (By ρ) 0 (s.drop (literalLength s)) t' := by
  unfold literalLength
  split
  next e =>
    obtain ⟨e, -⟩ := e
    match s, e with
    | c :: _ :: s, e =>
      cases e
      obtain ⟨t, rfl, h, -⟩ := m_cons (n := 4) (by omega) (m_of h)
      obtain ⟨t, rfl, -, h⟩ := m_cons (n := 3) (by omega) h
      exact ⟨t, rfl, h rfl⟩
  next =>
    split
    next e =>
      obtain ⟨-, -, -, -, e⟩ := e
      match s, e with
      | a :: b :: c :: d :: _ :: s, e =>
        cases e
        obtain ⟨t, rfl, h, -⟩ := m_cons (n := 4) (by omega) (m_of h)
        obtain ⟨t, rfl, h, -⟩ := m_cons (n := 3) (by omega) h
        obtain ⟨t, rfl, h, -⟩ := m_cons (n := 2) (by omega) h
        obtain ⟨t, rfl, h, -⟩ := m_cons (n := 1) (by omega) h
        obtain ⟨t, rfl, -, h⟩ := m_cons (n := 0) (by omega) h
        exact ⟨t, rfl, h rfl⟩
    next => exact ⟨t, rfl, mono h⟩

theorem renameN_eq {n k : Nat} {s t : Str} (h : Text (By ρ) n s t) (hk : s.length ≤ k) : t = renameN ρ k s := by
  induction k generalizing n s t with
  | zero =>
    obtain rfl : s = [] := List.length_eq_zero_iff.1 (by omega)
    exact (nil_iff h).1 rfl
  | succ k ih =>
    cases s with
    | nil => exact (nil_iff h).1 rfl
    | cons c s =>
      by_cases hc : IdentChar c
      · rw [renameN, if_pos hc]
        generalize hx : c :: s = x at h
        cases inv h with
        | nil => cases hx
        | other h1 => cases hx; exact absurd hc h1
        | quote => cases hx; exact absurd hc ident_quote
        | @word w w' s0 t0 h1 h2 h3 h4 h5 h6 =>
          obtain ⟨h0, h1⟩ := h1
          cases w with
          | nil => exact absurd rfl h0
          | cons d w =>
            obtain ⟨rfl, rfl⟩ := List.cons.inj (hx.trans List.cons_append)
            obtain ⟨e1, e2⟩ := run_eq (w := w) (fun c hc => h1 c (List.mem_cons_of_mem _ hc)) h3
            rw [e1, e2, h5.2, ih h6 (by simp at hk; omega)]
      · rw [renameN, if_neg hc]
        by_cases hq : c = '\''
        · subst hq
          rw [if_pos rfl]
          have next : ∀ {t'}, Text (By ρ) 0 (s.drop (literalLength s)) t' →
              t' = renameN ρ k (s.drop (literalLength s)) := fun h => ih h (by simp at hk ⊢; omega)
          generalize hx : '\'' :: s = x at h
          cases h with
          | nil => cases hx
          | other h1 h2 => cases hx; exact absurd rfl h2
          | @word w w' s0 t0 h1 =>
            obtain ⟨d, r, e, hd, -⟩ := word_ne ident_quote (s := s0) h1
            rw [e] at hx; cases hx; exact absurd rfl hd
          | @kept _ w s0 t0 h1 =>
            obtain ⟨d, r, e, hd, -⟩ := word_ne ident_quote (s := s0) h1
            rw [e] at hx; cases hx; exact absurd rfl hd
          | quote h =>
            cases hx
            obtain ⟨t', rfl, g⟩ := literal_same h
            rw [next g]; rfl
          | @literal c s t h1 h2 h =>
            cases hx
            have e : literalLength (c :: '\'' :: s) = 2 := by simp [literalLength, h1, h2]
            rw [e] at next ⊢
            rw [next h]; rfl
          | @hexadecimal a b s t h1 h2 h =>
            cases hx
            have e : literalLength ('\\' :: 'x' :: a :: b :: '\'' :: s) = 5 := by simp [literalLength, h1, h2]
            rw [e] at next ⊢
            rw [next h]; rfl
        · obtain ⟨t', rfl, g⟩ := other h hc hq
          rw [if_neg hq, ← ih g (by simpa using hk)]

/-- The renamed text is determined. -/
theorem text_eq {n : Nat} {s t : Str} (h : Text (By ρ) n s t) : t = renameText ρ s := renameN_eq h (Nat.le_refl _)

theorem kinds_word (h : Kinds ρ) {w : Str} (hw : IsWord w) : IsWord (ρ w) := by
  have key : ∀ {P : Char → Prop}, (∀ c, P c → IdentChar c) → ∀ {w}, Word P IdentChar w → IsWord w := by
    rintro P hP w ⟨c, cs, rfl, h1, h2⟩
    refine ⟨by simp, fun x hx => ?_⟩
    rcases List.mem_cons.1 hx with rfl | hx
    · exact hP _ h1
    · exact h2 x hx
  rcases h.1 w hw with e | ⟨-, h⟩ | ⟨-, h⟩ | ⟨-, h⟩ | ⟨-, h, -⟩
  · rw [← e]; exact hw
  · exact key (fun _ h => .inl h) (plain_word h)
  · exact key (fun _ h => .inl h) h.1
  · exact key (fun _ h => .inr (.inl h)) h
  · exact digits_word h

theorem renameN_ends {k : Nat} {s : Str} (h : Ends s) : Ends (renameN ρ k s) := by
  cases k with
  | zero => exact h
  | succ k =>
    cases s with
    | nil => exact h
    | cons c s =>
      have hc : ¬ IdentChar c := next_cons.1 h
      rw [renameN, if_neg hc]
      split <;> exact next_cons.2 hc

theorem renameN_text (h : Kinds ρ) {k : Nat} {s : Str} (hq : '\'' ∉ s) (hk : s.length ≤ k) :
    Text (By ρ) 0 s (renameN ρ k s) := by
  induction k generalizing s with
  | zero =>
    obtain rfl : s = [] := List.length_eq_zero_iff.1 (by omega)
    exact .nil
  | succ k ih =>
    cases s with
    | nil => exact .nil
    | cons c s =>
      rw [List.mem_cons, not_or] at hq
      by_cases hc : IdentChar c
      · rw [renameN, if_pos hc]
        have e := List.takeWhile_append_dropWhile (p := fun c => decide (IdentChar c)) (l := s)
        have l := congrArg List.length e
        rw [List.length_append] at l
        have hw : IsWord (c :: s.takeWhile fun c => decide (IdentChar c)) := by
          refine ⟨by simp, fun x hx => ?_⟩
          rcases List.mem_cons.1 hx with rfl | hx
          · exact hc
          · simpa using takeWhile_mem hx
        have he : Ends (s.dropWhile fun c => decide (IdentChar c)) := by
          intro d r e
          have := List.head?_dropWhile_not (fun c => decide (IdentChar c)) s
          rw [e] at this
          simpa using this
        have := ih (s := s.dropWhile fun c => decide (IdentChar c))
          (fun h => hq.2 ((List.dropWhile_suffix _).subset h)) (by simp at hk; omega)
        have := Text.word hw (kinds_word h hw) he (renameN_ends he) ⟨hw, rfl⟩ this
        rwa [List.cons_append, e] at this
      · rw [renameN, if_neg hc, if_neg (Ne.symm hq.1)]
        exact .other hc (Ne.symm hq.1) (ih hq.2 (by simpa using hk))

/-- A text without `'` can be renamed. -/
theorem text_rename (h : Kinds ρ) {s : Str} (hq : '\'' ∉ s) : Text (By ρ) 0 s (renameText ρ s) :=
  renameN_text h hq (Nat.le_refl _)

theorem text_digits {W : Str → Str → Prop} {d d' s t : Str} (h1 : Digits d) (h2 : Digits d') (h : W d d') (hs : Text W 0 s t)
    (e1 : Ends s) (e2 : Ends t) : Text W 0 (d ++ s) (d' ++ t) := .word (digits_word h1) (digits_word h2) e1 e2 h hs
theorem text_sign {W : Str → Str → Prop} {g s t : Str} (hg : Sign g) (h : Text W 0 s t) : Text W 0 (g ++ s) (g ++ t) := by
  rcases hg with rfl | rfl | rfl
  · exact h
  · exact .other (by decide) (by decide) h
  · exact .other (by decide) (by decide) h

/-! ### Numerals -/

theorem numeral_char {n : Nat} (h : n < 10) : Digit (Char.ofNat (48 + n)) ∧ (Char.ofNat (48 + n)).toNat - 48 = n := by
  have : ∀ n : _root_.Fin 10, Digit (Char.ofNat (48 + n.1)) ∧ (Char.ofNat (48 + n.1)).toNat - 48 = n.1 := by decide
  exact this ⟨n, h⟩
theorem decimal_snoc (d : Str) (c : Char) : decimal (d ++ [c]) = 10 * decimal d + (c.toNat - 48) := by
  rw [decimal_append]
  simp only [List.length_singleton, Nat.pow_one, decimal, List.length_nil, Nat.pow_zero, Nat.mul_one, Nat.add_zero]
  omega
theorem numeralN_spec {k n : Nat} (h : n < k) : Digits (numeralN k n) ∧ decimal (numeralN k n) = n := by
  induction k generalizing n with
  | zero => omega
  | succ k ih =>
    rw [numeralN]
    split
    next e =>
      obtain ⟨h1, h2⟩ := numeral_char e
      exact ⟨⟨by simp, by simpa using h1⟩, by simpa [decimal] using h2⟩
    next e =>
      obtain ⟨h1, h2⟩ := numeral_char (Nat.mod_lt n (by omega : 10 > 0))
      obtain ⟨i1, i2⟩ := ih (n := n / 10) (by omega)
      refine ⟨⟨by simp, fun c hc => ?_⟩, ?_⟩
      · rcases List.mem_append.1 hc with hc | hc
        · exact i1.2 c hc
        · rw [List.mem_singleton] at hc; subst hc; exact h1
      · rw [decimal_snoc, i2, h2]; omega
theorem numeral_digits (n : Nat) : Digits (numeral n) := (numeralN_spec (Nat.lt_succ_self n)).1
theorem decimal_numeral (n : Nat) : decimal (numeral n) = n := (numeralN_spec (Nat.lt_succ_self n)).2

/-! ### Trees -/

theorem name_eq {n n' : Name} (h : NameRel (By ρ) n n') : n' = renameName ρ n := by
  unfold renameName
  rcases h with ⟨h1, -, -, h⟩ | ⟨h1, h⟩
  · rw [if_pos h1, h]
  · rw [if_neg h1, h]
theorem names_eq {n n' : List Name} (h : Each (NameRel (By ρ)) n n') : n' = n.map (renameName ρ) := by
  induction h with
  | nil => rfl
  | cons h _ ih => rw [name_eq h, ih]; rfl

mutual
theorem ty_eq : ∀ {t t' : Ty}, TyRel (By ρ) t t' → t' = renameTy ρ t
  | .TypeConstructor _ ts, _, .con hn h => by rw [renameTy, names_eq hn, tys_eq (ts := ts) h]
  | .TypeVariable _, _, .var h => by rw [renameTy, name_eq h]
  | .TypeRecordConstructor b fs, _, .ext hb h => by rw [renameTy, ty_eq (t := b) hb, tyFields_eq (fs := fs) h]
  | .TypeRecord fs, _, .record h => by rw [renameTy, tyFields_eq (fs := fs) h]
  | .TypeTuple ts, _, .tuple h => by rw [renameTy, tys_eq (ts := ts) h]
  | .TypeApplication a b, _, .arrow h1 h2 => by rw [renameTy, ty_eq (t := a) h1, ty_eq (t := b) h2]
theorem tys_eq : ∀ {ts ts' : List Ty}, Each (TyRel (By ρ)) ts ts' → ts' = renameTys ρ ts
  | [], _, .nil => by rw [renameTys]
  | t :: ts, _, .cons h hs => by rw [renameTys, ty_eq (t := t) h, tys_eq (ts := ts) hs]
theorem tyFields_eq : ∀ {fs fs' : List (Name × Ty)}, Each (Pair (NameRel (By ρ)) (TyRel (By ρ))) fs fs' →
    fs' = renameTyFields ρ fs
  | [], _, .nil => by rw [renameTyFields]
  | (_, t) :: fs, _, .cons (.mk hn h) hs => by
    rw [renameTyFields, name_eq hn, ty_eq (t := t) h, tyFields_eq (fs := fs) hs]
end

theorem signature_eq {o o' : Option FunctionSignature} (h : Both (SigRel (By ρ)) o o') : o' = o.map (renameSignature ρ) := by
  cases h with
  | none => rfl
  | some h => cases h with | mk hn ht => rw [name_eq hn, ty_eq ht]; rfl

mutual
theorem expr_eq : ∀ {e e' : Expr}, ExprRel (By ρ) e e' → e' = renameExpr ρ e
  | .Character _, _, .character => by rw [renameExpr]
  | .String _, _, .string h => by rw [renameExpr, text_eq h]
  | .Integer _, _, .integer hs h1 h2 h => by
    have := text_sign hs (text_digits h1 h2 h .nil (next_nil _) (next_nil _))
    rw [List.append_nil, List.append_nil] at this
    rw [renameExpr, text_eq this]
  | .Float _, _, .float hs h1 h2 h h3 h4 h' => by
    have := text_digits h3 h4 h' .nil (next_nil _) (next_nil _)
    rw [List.append_nil, List.append_nil] at this
    have := text_sign hs (text_digits h1 h2 h (.other (c := '.') (by decide) (by decide) this) (next_cons.2 (by decide))
      (next_cons.2 (by decide)))
    rw [renameExpr, List.append_assoc, List.append_assoc, List.append_assoc, List.append_assoc]
    exact congrArg _ (text_eq this)
  | .Variable _, _, .var h => by rw [renameExpr, names_eq h]
  | .List es, _, .list h => by rw [renameExpr, exprs_eq (es := es) h]
  | .Tuple es, _, .tuple h => by rw [renameExpr, exprs_eq (es := es) h]
  | .Access e _, _, .access h hn => by rw [renameExpr, expr_eq (e := e) h, names_eq hn]
  | .AccessFunction _, _, .accessor h => by rw [renameExpr, name_eq h]
  | .Record fs, _, .record h => by rw [renameExpr, fields_eq (fs := fs) h]
  | .RecordUpdate _ fs, _, .update hn h => by rw [renameExpr, name_eq hn, fields_eq (fs := fs) h]
  | .If a b c, _, .cond h1 h2 h3 => by rw [renameExpr, expr_eq (e := a) h1, expr_eq (e := b) h2, expr_eq (e := c) h3]
  | .Let ls e, _, .let_ h1 h2 => by rw [renameExpr, entries_eq (ls := ls) h1, expr_eq (e := e) h2]
  | .Case e bs, _, .case h1 h2 => by rw [renameExpr, expr_eq (e := e) h1, branches_eq (bs := bs) h2]
  | .Lambda as e, _, .lambda h1 h2 => by rw [renameExpr, exprs_eq (es := as) h1, expr_eq (e := e) h2]
  | .Application a b, _, .app h1 h2 => by rw [renameExpr, expr_eq (e := a) h1, expr_eq (e := b) h2]
  | .BinOp o a b, _, .binop h1 h2 h3 => by
    rw [renameExpr, expr_eq (e := o) h1, expr_eq (e := a) h2, expr_eq (e := b) h3]
theorem exprs_eq : ∀ {es es' : List Expr}, Each (ExprRel (By ρ)) es es' → es' = renameExprs ρ es
  | [], _, .nil => by rw [renameExprs]
  | e :: es, _, .cons h hs => by rw [renameExprs, expr_eq (e := e) h, exprs_eq (es := es) hs]
theorem fields_eq : ∀ {fs fs' : List (Name × Expr)}, Each (Pair (NameRel (By ρ)) (ExprRel (By ρ))) fs fs' →
    fs' = renameFields ρ fs
  | [], _, .nil => by rw [renameFields]
  | (_, e) :: fs, _, .cons (.mk hn h) hs => by
    rw [renameFields, name_eq hn, expr_eq (e := e) h, fields_eq (fs := fs) hs]
theorem branches_eq : ∀ {bs bs' : List (Expr × Expr)}, Each (Pair (ExprRel (By ρ)) (ExprRel (By ρ))) bs bs' →
    bs' = renameBranches ρ bs
  | [], _, .nil => by rw [renameBranches]
  | (a, b) :: bs, _, .cons (.mk h1 h2) hs => by
    rw [renameBranches, expr_eq (e := a) h1, expr_eq (e := b) h2, branches_eq (bs := bs) hs]
theorem entries_eq : ∀ {ls ls' : List LetEntry}, Each (EntryRel (By ρ)) ls ls' → ls' = renameEntries ρ ls
  | [], _, .nil => by rw [renameEntries]
  | l :: ls, _, .cons h hs => by rw [renameEntries, entry_eq (l := l) h, entries_eq (ls := ls) hs]
theorem entry_eq : ∀ {l l' : LetEntry}, EntryRel (By ρ) l l' → l' = renameEntry ρ l
  | .LetFunction f, _, .fn h => by rw [renameEntry, function_eq (f := f) h]
  | .LetBinding a b, _, .bind h1 h2 => by rw [renameEntry, expr_eq (e := a) h1, expr_eq (e := b) h2]
theorem function_eq : ∀ {f f' : Function}, FunRel (By ρ) f f' → f' = renameFunction ρ f
  | .mk _ d, _, .mk h1 h2 => by rw [renameFunction, signature_eq h1, definition_eq (d := d) h2]
theorem definition_eq : ∀ {d d' : FunctionDefinition}, DefRel (By ρ) d d' → d' = renameDefinition ρ d
  | .mk _ as e, _, .mk hn h1 h2 => by rw [renameDefinition, name_eq hn, exprs_eq (es := as) h1, expr_eq (e := e) h2]
end

mutual
theorem export_eq : ∀ {x x' : ExportSet}, ExportRel (By ρ) x x' → x' = renameExport ρ x
  | .AllExport, _, .all => by rw [renameExport]
  | .SubsetExport xs, _, .subset h => by rw [renameExport, exports_eq (xs := xs) h]
  | .FunctionExport _, _, .fn h => by rw [renameExport, name_eq h]
  | .TypeExport _ o, _, .ty hn h => by rw [renameExport, name_eq hn, constructors_eq (o := o) h]
theorem exports_eq : ∀ {xs xs' : List ExportSet}, Each (ExportRel (By ρ)) xs xs' → xs' = renameExports ρ xs
  | [], _, .nil => by rw [renameExports]
  | x :: xs, _, .cons h hs => by rw [renameExports, export_eq (x := x) h, exports_eq (xs := xs) hs]
theorem constructors_eq : ∀ {o o' : Option ExportSet}, Both (ExportRel (By ρ)) o o' → o' = renameConstructors ρ o
  | none, _, .none => by rw [renameConstructors]
  | some x, _, .some h => by rw [renameConstructors, export_eq (x := x) h]
end

theorem statement_eq (hρ : Kinds ρ) {x x' : Statement} (h : StmtRel (By ρ) x x') : x' = renameStatement ρ x := by
  cases h with
  | module hn h => rw [renameStatement, names_eq hn, export_eq h]
  | portModule hn h => rw [renameStatement, names_eq hn, export_eq h]
  | effectModule hn hf h =>
    have : ∀ {fs fs'}, Each (Pair (NameRel (By ρ)) (NameRel (By ρ))) fs fs' →
        fs' = fs.map fun f => (renameName ρ f.1, renameName ρ f.2) := by
      intro fs fs' h
      induction h with
      | nil => rfl
      | cons h _ ih => cases h with | mk h1 h2 => rw [name_eq h1, name_eq h2, ih]; rfl
    rw [renameStatement, names_eq hn, export_eq h, this hf]
  | imports hn ho h =>
    rw [renameStatement, names_eq hn, constructors_eq h]
    cases ho with
    | none => rfl
    | some h => rw [name_eq h]; rfl
  | typeAlias h1 h2 => rw [renameStatement, ty_eq h1, ty_eq h2]
  | type h1 h2 => rw [renameStatement, ty_eq h1, tys_eq h2]
  | portType h1 h2 => rw [renameStatement, name_eq h1, ty_eq h2]
  | port h1 h2 h3 => rw [renameStatement, name_eq h1, names_eq h2, expr_eq h3]
  | fn h => rw [renameStatement, function_eq h]
  | infix_ h1 h2 h3 h => rw [renameStatement, name_eq h, h3.2, Int.toNat_natCast, hρ.2 _ _ h1 (numeral_digits _) (decimal_numeral _).symm]
  | comment h => rw [renameStatement, text_eq h]
theorem statements_eq (hρ : Kinds ρ) {xs xs' : List Statement} (h : Each (StmtRel (By ρ)) xs xs') : xs' = xs.map (renameStatement ρ) := by
  induction h with
  | nil => rfl
  | cons h _ ih => rw [statement_eq hρ h, ih]; rfl

end Rn
end ElmParser
