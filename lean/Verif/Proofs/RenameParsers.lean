import Verif.Proofs.RenameTokens
import Verif.Proofs.StmtSound

/-! The simulation of `Proofs/Rename.lean` for types, expressions, statements and files. -/
namespace ElmParser
open Spec Spec.Rename
set_option linter.unusedSectionVars false

namespace Rn

variable {α β γ δ : Type} {W : Str → Str → Prop} {st : Prop} {R : α → β → Prop} {Q : γ → δ → Prop}

/-! ### Operators -/

/-- Values that are not words are names. -/
theorem s_names {p : Parser Str} (h : E W p) (hp : ∀ s v r, p s = .ok v r → ¬ IsWord v) : S W False (NameRel W) p p :=
  fun s s' hs => by
  have h := h s s' hs
  have e := hp s
  revert h e
  generalize p s = x, p s' = y
  intro h e
  cases h with
  | @ok v v' r r' h a k1 k2 k3 => exact .ok (.inr ⟨e v r rfl, h⟩) a k1 k2 k3
  | stuck h => exact h.elim
  | err => exact .err
  | undefL h => exact .undefL h
  | undefR h => exact .undefR h

theorem s_operator : S W False (NameRel W) operator operator := s_names e_operator fun s v r h => by
  rintro ⟨-, hw⟩
  unfold operator at h
  rw [bind_apply] at h
  cases s with
  | nil => cases h
  | cons c s =>
    simp only [reMatches, rePlus, reHeadTail] at h
    cases e : isOpChar c with
    | false => simp [e] at h
    | true =>
      simp only [e, if_true, andThen_ok, bind_apply, index, List.getElem?_cons_zero] at h
      split at h
      · cases h
      · cases h
        have := sep_op c (hw c (by simp))
        rw [e] at this
        cases this

theorem s_commas : S W False (NameRel W) (takeWhile1 fun c => c == ',') (takeWhile1 fun c => c == ',') :=
  s_names (e_takeWhile1 (sep_eq (by decide)) (by decide)) fun s v r h => by
    rintro ⟨h0, hw⟩
    unfold takeWhile1 at h
    split at h
    · cases h
    next he =>
    cases h
    cases s with
    | nil => cases he
    | cons c s =>
      by_cases e : c = ','
      · subst e
        simp only [List.takeWhile_cons, beq_self_eq_true, if_true] at he
        rw [← he] at hw
        exact absurd (hw ',' (by simp)) (by decide)
      · simp [e] at he

/-! ### Brackets -/

theorem e_commaSep (ind : Nat) : E W (commaSep ind) :=
  s_delimited0 (e_opt (e_gap ind _)) (e_char (by decide) (by decide)) (e_opt (e_gap ind _))
theorem ke_commaSep (ind : Nat) : KE (commaSep ind) := ke_delimitedO (ko_opt (ke_gap ind _)) (ke_char (by decide))

/-- Something in brackets with optional white space. -/
theorem s_brackets (ind : Nat) {p : Parser α} {p' : Parser β} {a b : Char} (ha : ¬ IdentChar a) (ha' : a ≠ '\'')
    (hb : ¬ IdentChar b) (hb' : b ≠ '\'') (h : S W True R p p') :
    S W st R (delimited (preceded (char a) (opt (gap ind .GTE))) p (terminated (opt (gap ind .GTE)) (char b)))
      (delimited (preceded (char a) (opt (gap ind .GTE))) p' (terminated (opt (gap ind .GTE)) (char b))) :=
  s_delimited (s_preceded (e_char ha ha') (e_opt (e_gap ind _))) h (s_terminated (e_opt (e_gap ind _)) (e_char hb hb'))
    (ke_terminatedO (ko_opt (ke_gap ind _)) (ke_char hb)) (ke_terminatedO (ko_opt (ke_gap ind _)) (ke_char hb))

theorem each_append {a b : List α} {a' b' : List β} (h : Each R a a') (h' : Each R b b') : Each R (a ++ b) (a' ++ b') := by
  induction h with
  | nil => exact h'
  | cons h _ ih => exact .cons h ih
theorem each_reverse {a : List α} {a' : List β} (h : Each R a a') : Each R a.reverse a'.reverse := by
  induction h with
  | nil => exact .nil
  | cons h _ ih => rw [List.reverse_cons, List.reverse_cons]; exact each_append ih (.cons h .nil)

/-- A separated list has a first element. -/
theorem sep_cons {sep : Parser α} {p : Parser β} {s r : Str} {v : List β} (h : sepNonemptyList sep p s = .ok v r) :
    ∃ a as, v = a :: as := by
  unfold sepNonemptyList at h
  cases e : p s with
  | ok a q =>
    rw [e, andThen_ok] at h
    split at h
    · cases h
    · cases e' : sepLoop sep p (q.length + 1) q with
      | ok as q' => rw [e', andThen_ok] at h; cases h; exact ⟨a, as, rfl⟩
      | _ => rw [e'] at h; cases h
  | _ => rw [e] at h; cases h

theorem sepList_eq (sep : Parser α) (p : Parser β) (s : Str) :
    sepList sep p s = match sepNonemptyList sep p s with
      | x => match p s with | .err => .ok [] s | _ => x := by
  unfold sepList sepNonemptyList
  cases p s <;> rfl

section
variable (hW : Renaming W)
include hW

/-! ### Types -/

/-- The recursive calls agree. -/
structure TyOk (W : Str → Str → Prop) (rc rc' : TyRec) : Prop where
  ty : ∀ ind, S W True (TyRel W) (rc.type_ ind) (rc'.type_ ind)
  ann : ∀ ind, S W True (TyRel W) (rc.typeAnnotation ind) (rc'.typeAnnotation ind)

theorem s_typeConstant : S W st (TyRel W) typeConstant typeConstant :=
  s_pmap (lift (s_dotted hW)) fun _ _ h => .con h .nil

section
variable {rc rc' : TyRec} (h : TyOk W rc rc') (ind : Nat)
include h

theorem s_typeTuple : S W st (TyRel W) (typeTuple rc ind) (typeTuple rc' ind) :=
  s_pmap (s_brackets ind (by decide) (by decide) (by decide) (by decide)
    (s_sepList (e_commaSep ind) (.inl (ke_commaSep ind)) (.inl (ke_commaSep ind)) (h.ty ind))) fun _ _ h => .tuple h

theorem s_typeRecordPair : S W True (Pair (NameRel W) (TyRel W)) (typeRecordPair rc ind) (typeRecordPair rc' ind) :=
  bE (s_loName hW) (fun _ _ hn => e0 (e_opt (e_gap ind _)) fun _ => e0 (e_char (by decide) (by decide)) fun _ =>
    e0 (e_opt (e_gap ind _)) fun _ => bO (h.ann ind) (fun _ _ ht => s_pure (.mk hn ht)) (fun _ => by kk) (fun _ => by kk))
    (fun _ => by kk) (fun _ => by kk)

theorem s_typeRecordPairs :
    S W True (Each (Pair (NameRel W) (TyRel W))) (typeRecordPairs rc ind) (typeRecordPairs rc' ind) :=
  s_sepList (e_commaSep ind) (.inl (ke_commaSep ind)) (.inl (ke_commaSep ind)) (s_typeRecordPair hW h ind)

theorem s_typeRecordConstructor : S W st (TyRel W) (typeRecordConstructor rc ind) (typeRecordConstructor rc' ind) :=
  s_delimited (e_char (by decide) (by decide)) (e0 (e_gap ind _) fun _ => bE (s_typeVariable hW) (fun _ _ hv =>
    e0 (e_gap ind _) fun _ => e0 (e_char (by decide) (by decide)) fun _ => e0 (e_gap ind _) fun _ =>
    bE (s_typeRecordPairs hW h ind) (fun _ _ hp => e0 (e_gap ind _) fun _ => s_pure (.ext hv hp))
      (fun _ => by kk) (fun _ => by kk)) (fun _ => by kk) (fun _ => by kk))
    (e_char (by decide) (by decide)) (by kk) (by kk)

theorem s_typeRecord : S W st (TyRel W) (typeRecord rc ind) (typeRecord rc' ind) :=
  s_brackets ind (by decide) (by decide) (by decide) (by decide)
    (s_pmap (s_typeRecordPairs hW h ind) fun _ _ h => .record h)

theorem s_typeParens : S W st (TyRel W) (typeParens rc ind) (typeParens rc' ind) :=
  s_brackets ind (by decide) (by decide) (by decide) (by decide) (h.ann ind)

theorem s_typeParameter : S W True (TyRel W) (typeParameter rc ind) (typeParameter rc' ind) :=
  s_alt (s_typeVariable hW) <| s_alt (s_typeConstant hW) <| s_alt (s_typeRecordConstructor hW h ind) <|
  s_alt (s_typeRecord hW h ind) <| s_alt (s_typeTuple hW h ind) (s_typeParens hW h ind)

theorem s_typeConstructorF : S W True (TyRel W) (typeConstructorF rc ind) (typeConstructorF rc' ind) :=
  b0 (s_dotted hW) fun _ _ hn => bO (s_many0 (p := typeArg rc ind) (p' := typeArg rc' ind)
    (e0 (e_gap ind _) fun j => s_typeParameter hW h j)
    (ke_bind (ke_gap ind _)) (ke_bind (ke_gap ind _))) (fun _ _ ht => s_pure (.con hn ht)) (fun _ => by kk) (fun _ => by kk)

theorem s_typeF : S W True (TyRel W) (typeF rc ind) (typeF rc' ind) :=
  s_alt (s_typeConstructorF hW h ind) <| s_alt (s_typeVariable hW) <| s_alt (s_typeRecordConstructor hW h ind) <|
  s_alt (s_typeRecord hW h ind) <| s_alt (s_typeTuple hW h ind) (s_typeParens hW h ind)

omit hW h in
/-- The type built from a list of types. -/
def arrowsOf (v : List Ty) : Ty :=
  match v.reverse with
  | [] => .TypeTuple []
  | [t] => t
  | t2 :: t1 :: v => v.foldl (fun app entry => .TypeApplication entry app) (.TypeApplication t1 t2)

omit hW h in
theorem foldl_arrow {ts ts' : List Ty} (h : Each (TyRel W) ts ts') {a a' : Ty} (ha : TyRel W a a') :
    TyRel W (ts.foldl (fun app entry => .TypeApplication entry app) a)
      (ts'.foldl (fun app entry => .TypeApplication entry app) a') := by
  induction h generalizing a a' with
  | nil => exact ha
  | cons h _ ih => exact ih (.arrow h ha)

omit hW h in
theorem arrowsOf_rel {v v' : List Ty} (h : Each (TyRel W) v v') : TyRel W (arrowsOf v) (arrowsOf v') := by
  have h := each_reverse h
  unfold arrowsOf
  revert h
  generalize v.reverse = x, v'.reverse = y
  intro h
  cases h with
  | nil => exact .tuple .nil
  | cons h1 h =>
    cases h with
    | nil => exact h1
    | cons h2 h => exact foldl_arrow h (.arrow h2 h1)

omit hW h in
theorem typeAnnotationF_eq (rc : TyRec) (ind : Nat) (s : Str) :
    typeAnnotationF rc ind s = pmap (sepNonemptyList arrowSep (typeF rc ind)) arrowsOf s := by
  unfold typeAnnotationF
  rw [bind_apply, pmap_apply]
  cases e : sepNonemptyList arrowSep (typeF rc ind) s with
  | ok v r =>
    obtain ⟨a, as, rfl⟩ := sep_cons e
    rw [andThen_ok, andThen_ok]
    cases as with
    | nil => rfl
    | cons b bs =>
      have key : ∀ l : List Ty, 2 ≤ l.length → ∃ x y z, l = x :: y :: z := by
        intro l hl
        match l, hl with
        | x :: y :: z, _ => exact ⟨x, y, z, rfl⟩
      obtain ⟨x, y, z, hz⟩ := key (a :: b :: bs).reverse (by simp)
      have hl : ((a :: b :: bs).length == 1) = false := by simp
      simp only [List.isEmpty_cons, Bool.false_eq_true, if_false, hl, arrowsOf, buildArrows, hz]
      rfl
  | _ => rfl

theorem s_typeAnnotationF : S W True (TyRel W) (typeAnnotationF rc ind) (typeAnnotationF rc' ind) :=
  s_congr (s_pmap (s_sepNonemptyList (sep := arrowSep) (sep' := arrowSep)
    (s_delimited0 e_sn (e_tag (by decide)) e_sn) (.inl (ke_delimited ke_sn)) (.inl (ke_delimited ke_sn))
    (s_typeF hW h ind)) fun _ _ h => arrowsOf_rel h) (typeAnnotationF_eq rc ind) (typeAnnotationF_eq rc' ind)
end

theorem tyOk_tyN (n m : Nat) : TyOk W (tyN n) (tyN m) := by
  induction n generalizing m with
  | zero => exact ⟨fun _ _ _ _ => .undefL (.inl rfl), fun _ _ _ _ => .undefL (.inl rfl)⟩
  | succ n ih =>
    cases m with
    | zero => exact ⟨fun _ _ _ _ => .undefR (.inl rfl), fun _ _ _ _ => .undefR (.inl rfl)⟩
    | succ m => exact ⟨fun ind => s_typeF hW (ih m) ind, fun ind => s_typeAnnotationF hW (ih m) ind⟩

theorem tyOk_tyRec : TyOk W tyRec tyRec where
  ty ind s s' hs := by
    have h := (tyOk_tyN hW (s.length + 1) (s'.length + 1)).ty ind s s' hs
    rw [tyRec]
    exact h
  ann ind s s' hs := by
    have h := (tyOk_tyN hW (s.length + 1) (s'.length + 1)).ann ind s s' hs
    rw [tyRec]
    exact h

/-! ### Expressions -/

theorem s_variableP : S W True (ExprRel W) variableP variableP :=
  s_alt (s_pmap (s_loName hW) fun _ _ h => .var (.cons h .nil)) (s_alt (s_pmap (lift (s_dotted hW)) fun _ _ h => .var h)
    (s_pmap (s_delimited0 (e_char (by decide) (by decide)) (s_alt s_operator s_commas) (e_char (by decide) (by decide)))
      fun _ _ h => .var (.cons h .nil)))

theorem s_dotName : S W True (NameRel W) dotName dotName :=
  e0 (e_char (by decide) (by decide)) fun _ => s_loName hW
omit hW in
theorem ke_dotName : KE dotName := ke_bind (ke_char (by decide))

theorem s_access : S W True (ExprRel W) access access :=
  bE (s_variableP hW) (fun _ _ hv => bO (s_many1 (s_dotName hW) ke_dotName ke_dotName)
    (fun _ _ hn => s_pure (.access hv hn)) (fun _ => by kk) (fun _ => by kk))
    (fun _ => ke_bind (ke_many1 ke_dotName)) (fun _ => ke_bind (ke_many1 ke_dotName))

theorem s_accessFunction : S W True (ExprRel W) accessFunction accessFunction :=
  e0 (e_char (by decide) (by decide)) fun _ => bO (s_loName hW) (fun _ _ h => s_pure (.accessor h))
    (fun _ => by kk) (fun _ => by kk)

theorem s_simplifiedRecord : S W st (ExprRel W) simplifiedRecord simplifiedRecord :=
  s_pmap (s_delimited (e_char (by decide) (by decide)) (s_sepList (sep := char ',') (sep' := char ',')
    (p := simplifiedField) (p' := simplifiedField) (Q := Pair (NameRel W) (ExprRel W))
    (e_char (by decide) (by decide)) (.inl (by kk)) (.inl (by kk))
    (e0 e_multispace0 fun _ => bO (s_loName hW) (fun _ _ h => e0 e_multispace0 fun _ =>
      s_pure (.mk h (.var (.cons h .nil)))) (fun _ => by kk) (fun _ => by kk)))
    (e_char (by decide) (by decide)) (by kk) (by kk)) fun _ _ h => .record h

/-- The recursive calls agree. -/
def ExOk (W : Str → Str → Prop) (rc rc' : ExprRec) : Prop := ∀ ind, S W True (ExprRel W) (rc ind) (rc' ind)

section
variable {rc rc' : ExprRec} (h : ExOk W rc rc') (ind : Nat)
include h

theorem s_tuple : S W st (ExprRel W) (tuple rc ind) (tuple rc' ind) :=
  s_pmap (s_delimited (e_char (by decide) (by decide)) (s_sepList (sep := char ',') (sep' := char ',')
    (e_char (by decide) (by decide)) (.inl (by kk)) (.inl (by kk))
    (e0 e_multispace0 fun _ => bO (h ind) (fun _ _ h => e0 e_multispace0 fun _ => s_pure h) (fun _ => by kk) (fun _ => by kk)))
    (e_char (by decide) (by decide)) (by kk) (by kk)) fun _ _ h => .tuple h

theorem s_list : S W st (ExprRel W) (list rc ind) (list rc' ind) :=
  s_pmap (s_brackets ind (by decide) (by decide) (by decide) (by decide)
    (s_opt (s_sepList (e_commaSep ind) (.inl (ke_commaSep ind)) (.inl (ke_commaSep ind)) (h ind)))) fun _ _ h => by
    cases h with
    | none => exact .list .nil
    | some h => exact .list h

theorem s_recordField : S W True (Pair (NameRel W) (ExprRel W)) (recordField rc ind) (recordField rc' ind) :=
  bE (s_loName hW) (fun _ _ hn => b0 (s_delimited0 (e_opt (e_gap ind _)) (e_char (by decide) (by decide))
    (e_opt (e_gap ind _))) fun _ _ _ => bO (h ind) (fun _ _ h => s_pure (.mk hn h)) (fun _ => by kk) (fun _ => by kk))
    (fun _ => by kk) (fun _ => by kk)

theorem s_record : S W st (ExprRel W) (record rc ind) (record rc' ind) :=
  s_pmap (s_brackets ind (by decide) (by decide) (by decide) (by decide)
    (s_sepList (e_commaSep ind) (.inl (ke_commaSep ind)) (.inl (ke_commaSep ind)) (s_recordField hW h ind)))
    fun _ _ h => .record h

theorem s_updateField : S W True (Pair (NameRel W) (ExprRel W)) (updateField rc ind) (updateField rc' ind) :=
  bE (s_loName hW) (fun _ _ hn => e0 e_multispace0 fun _ => e0 (e_char (by decide) (by decide)) fun _ =>
    e0 e_multispace0 fun _ => bO (h ind) (fun _ _ h => s_pure (.mk hn h)) (fun _ => by kk) (fun _ => by kk))
    (fun _ => by kk) (fun _ => by kk)

theorem s_recordUpdate : S W st (ExprRel W) (recordUpdate rc ind) (recordUpdate rc' ind) :=
  s_delimited (s_preceded (e_char (by decide) (by decide)) (e_optGap ind _))
    (bE (s_loName hW) (fun _ _ hn => e0 (e_optGap ind _) fun _ => e0 (e_char (by decide) (by decide)) fun _ =>
      e0 e_multispace0 fun _ => bO (s_sepList (s_delimited0 (e_optGap ind _) (e_char (by decide) (by decide)) (e_optGap ind _))
        (.inl (by kk)) (.inl (by kk)) (s_updateField hW h ind)) (fun _ _ hp => s_pure (.update hn hp))
        (fun _ => by kk) (fun _ => by kk)) (fun _ => by kk) (fun _ => by kk))
    (s_terminated (e_gap ind _) (e_char (by decide) (by decide))) (by kk) (by kk)

theorem s_parens : S W st (ExprRel W) (parens rc ind) (parens rc' ind) :=
  s_delimited (e_char (by decide) (by decide)) (h ind) (e_char (by decide) (by decide)) (by kk) (by kk)

theorem s_termF : S W True (ExprRel W) (termF rc ind) (termF rc' ind) :=
  s_alt (s_access hW) <| s_alt (s_variableP hW) <| s_alt (s_accessFunction hW) <| s_alt s_string <|
  s_alt (s_float hW) <| s_alt (s_integer hW) <| s_alt (lift s_character) <| s_alt (s_parens hW h ind) <|
  s_alt (s_list hW h ind) <| s_alt (s_tuple hW h ind) <| s_alt (s_recordUpdate hW h ind) <| s_alt (s_record hW h ind)
  (s_simplifiedRecord hW)

theorem s_lambda : S W True (ExprRel W) (lambda rc ind) (lambda rc' ind) :=
  e0 (e_char (by decide) (by decide)) fun _ => bE (s_sepNonemptyList e_space1 (.inl ke_space1) (.inl ke_space1)
    (s_termF hW h ind)) (fun _ _ ha => e0 (e_gap ind _) fun _ => e0 (e_tag (by decide)) fun _ => e0 (e_gap ind _) fun j =>
      bO (h j) (fun _ _ hb => s_pure (.lambda ha hb)) (fun _ => by kk) (fun _ => by kk)) (fun _ => by kk) (fun _ => by kk)

omit hW h in
/-- The application built from a list of terms. -/
def appOf (v : List Expr) : Expr :=
  match v with
  | [] => .Tuple []
  | [a] => a
  | a :: b :: v => v.foldl (fun app entry => .Application app entry) (.Application a b)

omit hW h in
theorem foldl_app {es es' : List Expr} (h : Each (ExprRel W) es es') {a a' : Expr} (ha : ExprRel W a a') :
    ExprRel W (es.foldl (fun app entry => .Application app entry) a)
      (es'.foldl (fun app entry => .Application app entry) a') := by
  induction h generalizing a a' with
  | nil => exact ha
  | cons h _ ih => exact ih (.app ha h)

omit hW h in
theorem appOf_rel {v v' : List Expr} (h : Each (ExprRel W) v v') : ExprRel W (appOf v) (appOf v') := by
  cases h with
  | nil => exact .tuple .nil
  | cons h1 h =>
    cases h with
    | nil => exact h1
    | cons h2 h => exact foldl_app h (.app h1 h2)

omit hW h in
theorem applicationOrVar_eq (rc : ExprRec) (ind : Nat) (s : Str) :
    applicationOrVar rc ind s = pmap (sepNonemptyList (gap ind .GT) (termF rc ind)) appOf s := by
  unfold applicationOrVar
  rw [bind_apply, pmap_apply, sepList_eq]
  dsimp only
  cases e : sepNonemptyList (gap ind .GT) (termF rc ind) s with
  | ok v r =>
    obtain ⟨a, as, rfl⟩ := sep_cons e
    have : ∃ b q, termF rc ind s = .ok b q := by
      unfold sepNonemptyList at e
      cases e' : termF rc ind s with
      | ok b q => exact ⟨b, q, rfl⟩
      | _ => rw [e'] at e; cases e
    obtain ⟨b, q, e'⟩ := this
    rw [e']
    dsimp only
    rw [andThen_ok, andThen_ok]
    cases as with
    | nil => rfl
    | cons b bs => rfl
  | _ =>
    cases e' : termF rc ind s with
    | _ => first | rfl | (unfold sepNonemptyList at e; rw [e'] at e; cases e)

theorem s_applicationOrVar : S W True (ExprRel W) (applicationOrVar rc ind) (applicationOrVar rc' ind) :=
  s_congr (s_pmap (s_sepNonemptyList (e_gap ind _) (.inl (ke_gap ind _)) (.inl (ke_gap ind _)) (s_termF hW h ind))
    fun _ _ h => appOf_rel h) (applicationOrVar_eq rc ind) (applicationOrVar_eq rc' ind)

omit h in
theorem s_functionNameOrOp : S W True (NameRel W) functionNameOrOp functionNameOrOp :=
  s_alt (s_loName hW) (s_delimited0 (e_char (by decide) (by decide)) s_operator (e_char (by decide) (by decide)))

omit h in
theorem s_functionSignature : S W True (SigRel W) (functionSignature ind) (functionSignature ind) :=
  bE (s_functionNameOrOp hW) (fun _ _ hn => e0 e_spaces fun _ => e0 (e_char (by decide) (by decide)) fun _ =>
    e0 (e_gap ind _) fun j => bO ((tyOk_tyRec hW).ann j) (fun _ _ ht => s_pure (.mk hn ht)) (fun _ => by kk) (fun _ => by kk))
    (fun _ => by kk) (fun _ => by kk)

theorem s_functionDefinitionF : S W True (DefRel W) (functionDefinitionF rc ind) (functionDefinitionF rc' ind) :=
  bE (s_functionNameOrOp hW) (fun _ _ hn => bE (s_many0 (s_preceded e_spaces (s_termF hW h ind)) (by kk) (by kk))
    (fun _ _ ha => e0 e_spaces fun _ => e0 (e_char (by decide) (by decide)) fun _ => e0 (e_gap ind _) fun j =>
      bO (h j) (fun _ _ hb => s_pure (.mk hn ha hb)) (fun _ => by kk) (fun _ => by kk)) (fun _ => by kk) (fun _ => by kk))
    (fun _ => by kk) (fun _ => by kk)

theorem s_functionF : S W True (FunRel W) (functionF rc ind) (functionF rc' ind) :=
  b0 (s_opt (s_terminatedE (s_functionSignature hW ind) (e_newLineAndSameIndent ind) (by kk) (by kk))) fun _ _ ho =>
    bO (s_functionDefinitionF hW h ind) (fun _ _ hd => s_pure (.mk ho hd)) (fun _ => by kk) (fun _ => by kk)

theorem s_letBindingTarget : S W True (ExprRel W) (letBindingTarget rc ind) (letBindingTarget rc' ind) :=
  s_alt (s_variableP hW) (s_alt (s_list hW h ind) (s_alt (s_tuple hW h ind) (s_simplifiedRecord hW)))

theorem s_letBinding : S W True (EntryRel W) (letBinding rc ind) (letBinding rc' ind) :=
  bE (s_letBindingTarget hW h ind) (fun _ _ h1 => e0 (e_gap ind _) fun _ => e0 (e_char (by decide) (by decide)) fun _ =>
    e0 (e_gap ind _) fun j => bO (h j) (fun _ _ h2 => s_pure (.bind h1 h2)) (fun _ => by kk) (fun _ => by kk))
    (fun _ => by kk) (fun _ => by kk)

theorem s_letEntry : S W True (EntryRel W) (letEntry rc ind) (letEntry rc' ind) :=
  s_alt (s_letBinding hW h ind) (s_pmap (s_functionF hW h ind) fun _ _ h => .fn h)

theorem s_letExpression : S W True (ExprRel W) (letExpression rc ind) (letExpression rc' ind) :=
  s_kw hW (by decide) (fun _ => e0 (e_gap ind _) fun j =>
    bE (s_sepNonemptyList (e_gap j _) (.inl (ke_gap j _)) (.inl (ke_gap j _)) (s_letEntry hW h j)) (fun _ _ h1 =>
      e0 (e_gap ind _) fun _ => s_kw hW (by decide) (fun _ => e0 (e_gap ind _) fun _ => bO (h ind) (fun _ _ h2 =>
        s_pure (.let_ h1 h2)) (fun _ => by kk) (fun _ => by kk)) (by kk) (by kk)) (fun _ => by kk) (fun _ => by kk))
    (by kk) (by kk)

theorem s_caseBranch : S W True (Pair (ExprRel W) (ExprRel W)) (caseBranch rc ind) (caseBranch rc' ind) :=
  bE (h ind) (fun _ _ h1 => e0 (e_gap ind _) fun _ => e0 (e_tag (by decide)) fun _ => e0 (e_gap ind _) fun j =>
    bO (h j) (fun _ _ h2 => s_pure (.mk h1 h2)) (fun _ => by kk) (fun _ => by kk)) (fun _ => by kk) (fun _ => by kk)

theorem s_caseExpression : S W True (ExprRel W) (caseExpression rc ind) (caseExpression rc' ind) :=
  s_kw hW (by decide) (fun _ => e0 (e_gap ind _) fun _ => bE (h ind) (fun _ _ h1 => e0 (e_gap ind _) fun _ =>
    s_kw hW (by decide) (fun _ => e0 (e_gap ind _) fun j =>
      bO (s_sepNonemptyList (e_gap j _) (.inl (ke_gap j _)) (.inl (ke_gap j _)) (s_caseBranch hW h j)) (fun _ _ h2 =>
        s_pure (.case h1 h2)) (fun _ => by kk) (fun _ => by kk)) (by kk) (by kk)) (fun _ => by kk) (fun _ => by kk))
    (by kk) (by kk)

theorem s_ifExpression : S W True (ExprRel W) (ifExpression rc ind) (ifExpression rc' ind) :=
  s_kw hW (by decide) (fun _ => e0 (e_gap ind _) fun _ => bE (h ind) (fun _ _ h1 => e0 (e_gap ind _) fun _ =>
    s_kw hW (by decide) (fun _ => e0 (e_gap ind _) fun j => bE (h j) (fun _ _ h2 => e0 (e_gap ind _) fun _ =>
      s_kw hW (by decide) (fun _ => e0 (e_gap ind _) fun k => bO (h k) (fun _ _ h3 => s_pure (.cond h1 h2 h3))
        (fun _ => by kk) (fun _ => by kk)) (by kk) (by kk)) (fun _ => by kk) (fun _ => by kk)) (by kk) (by kk))
    (fun _ => by kk) (fun _ => by kk)) (by kk) (by kk)

theorem s_binaryTail : S W True (Pair (ExprRel W) (ExprRel W)) (binaryTail rc ind) (binaryTail rc' ind) :=
  e0 (e_gap ind _) fun _ => by
    have tail : ∀ {n n' : Name}, NameRel W n n' → S W True (Pair (ExprRel W) (ExprRel W))
        (multispace >>= fun _ => rc ind >>= fun e => pure (Expr.Variable [n], e))
        (multispace >>= fun _ => rc' ind >>= fun e => pure (Expr.Variable [n'], e)) := fun hn =>
      e0 e_multispace fun _ => bO (h ind) (fun _ _ h2 => s_pure (.mk (.var (.cons hn .nil)) h2))
        (fun _ => by kk) (fun _ => by kk)
    refine s_congr (s_alt (s_kw hW (k := c!"as") (by decide) (fun hw => tail (.inl ⟨?_, ?_, hw⟩)) (by kk) (by kk))
      (b0 s_operator fun _ _ h => tail h)) (operatorOrAs_bind _) (operatorOrAs_bind _)
    · exact ⟨by simp, by decide⟩
    · exact ⟨by simp, by decide⟩

theorem s_binary : S W True (ExprRel W) (binary rc ind) (binary rc' ind) :=
  bO (s_applicationOrVar hW h ind) (fun _ _ h1 => bO (s_opt (s_binaryTail hW h ind)) (fun _ _ h2 => by
    cases h2 with
    | none => exact s_pure h1
    | some h => cases h with | mk h2 h3 => exact s_pure (.binop h2 h1 h3)) (fun _ => by kk) (fun _ => by kk))
    (fun _ => ko_bind (ko_opt (ke_bind (ke_gap ind _))) fun _ => by kk)
    (fun _ => ko_bind (ko_opt (ke_bind (ke_gap ind _))) fun _ => by kk)

theorem s_expressionF : S W True (ExprRel W) (expressionF rc ind) (expressionF rc' ind) :=
  s_alt (s_binary hW h ind) <| s_alt (s_letExpression hW h ind) <| s_alt (s_caseExpression hW h ind) <|
  s_alt (s_ifExpression hW h ind) (s_lambda hW h ind)
end

theorem exOk_exprN (n m : Nat) : ExOk W (exprN n) (exprN m) := by
  induction n generalizing m with
  | zero => exact fun _ _ _ _ => .undefL (.inl rfl)
  | succ n ih =>
    cases m with
    | zero => exact fun _ _ _ _ => .undefR (.inl rfl)
    | succ m => exact fun ind => s_expressionF hW (ih m) ind

theorem exOk_expression : ExOk W expression expression := fun ind s s' hs =>
  exOk_exprN hW (s.length + 1) (s'.length + 1) ind s s' hs

/-! ### Statements -/

omit hW in
theorem s_until : S W False (Text W 0) (takeUntilAndConsume c!"-}") (takeUntilAndConsume c!"-}") := fun s s' hs => by
  have h := find_text hs
  unfold takeUntilAndConsume
  cases e : findSubstring c!"-}" s with
  | none =>
    cases e' : findSubstring c!"-}" s' with
    | none => exact .err
    | some x => rw [e, e'] at h; cases h
  | some x =>
    cases e' : findSubstring c!"-}" s' with
    | none => rw [e, e'] at h; cases h
    | some y =>
      rw [e, e'] at h
      obtain ⟨a, b⟩ := x
      obtain ⟨a', b'⟩ := y
      cases h with
      | some h =>
        cases h with
        | mk h1 h2 =>
          exact sm_ok h1 h2 (u := a ++ c!"-}") (u' := a' ++ c!"-}") (by simpa using find_append e)
            (by simpa using find_append e') (by simp) (by simp)

omit hW in
theorem s_comment : S W st (StmtRel W) comment comment :=
  s_alt (b0 (s_preceded (e_tag (by decide)) (s_reStar full_line)) fun _ _ h =>
      b0 (s_index h 0) fun _ _ h => s_pure (.comment h))
    (s_pmap (lift (s_preceded (e_tag (by decide)) s_until)) fun _ _ h => .comment h)

omit hW in
theorem s_allExport : S W st (ExportRel W) allExport allExport := e_pmap (e_tag (by decide)) fun _ => .all
theorem s_functionExport : S W True (ExportRel W) functionExport functionExport :=
  s_pmap (s_alt (s_pmap (s_loName hW) fun _ _ h => h)
    (s_delimited0 (e_char (by decide) (by decide)) s_operator (e_char (by decide) (by decide)))) fun _ _ h => .fn h
theorem s_constructorExports : S W st (Both (ExportRel W)) constructorExports constructorExports :=
  s_opt (s_delimited0 (e_char (by decide) (by decide)) (s_alt s_allExport
    (s_pmap (s_sepNonemptyList (e_tag (by decide)) (.inl (by kk)) (.inl (by kk))
      (s_pmap (s_upName hW) fun _ _ h => .fn h)) fun _ _ h => .subset h)) (e_char (by decide) (by decide)))
theorem s_typeExport : S W st (ExportRel W) typeExport typeExport :=
  b0 (s_upName hW) fun _ _ hn => b0 (s_constructorExports hW) fun _ _ ho => s_pure (.ty hn ho)
theorem s_subsetExport : S W True (ExportRel W) subsetExport subsetExport :=
  s_pmap (s_sepNonemptyList (s_delimited0 (e_opt e_sn) (e_char (by decide) (by decide)) (e_opt e_sn))
    (.inl (by kk)) (.inl (by kk)) (s_alt (s_functionExport hW) (s_typeExport hW))) fun _ _ h => .subset h
theorem s_exports : S W st (ExportRel W) exports exports :=
  s_brackets 0 (by decide) (by decide) (by decide) (by decide) (s_alt s_allExport (s_subsetExport hW))

theorem s_exposing {f : ExportSet → γ} {g : ExportSet → δ} (h : ∀ x x', ExportRel W x x' → Q (f x) (g x')) :
    S W st Q (gap 0 .GT >>= fun _ => tag c!"exposing" >>= fun _ => gap 0 .GT >>= fun _ => exports >>= fun x => pure (f x))
      (gap 0 .GT >>= fun _ => tag c!"exposing" >>= fun _ => gap 0 .GT >>= fun _ => exports >>= fun x => pure (g x)) :=
  e0 (e_gap 0 _) fun _ => s_kw hW (by decide) (fun _ => e0 (e_gap 0 _) fun _ => b0 (s_exports hW) fun _ _ hx =>
    s_pure (h _ _ hx)) (by kk) (by kk)

theorem s_portModuleDeclaration : S W st (StmtRel W) portModuleDeclaration portModuleDeclaration :=
  s_kw hW (by decide) (fun _ => e0 (e_gap 0 _) fun _ => s_kw hW (by decide) (fun _ => e0 (e_gap 0 _) fun _ =>
    b0 (s_dotted hW) fun _ _ hn => s_exposing hW fun _ _ hx => .portModule hn hx) (by kk) (by kk)) (by kk) (by kk)

theorem s_effectField : S W False (Pair (NameRel W) (NameRel W)) effectField effectField :=
  bE (s_loName hW) (fun _ _ hn => e0 (e_opt e_spaces) fun _ => e0 (e_char (by decide) (by decide)) fun _ =>
    e0 (e_opt e_spaces) fun _ => b0 (s_upName hW) fun _ _ hu => s_pure (.mk hn hu)) (fun _ => by kk) (fun _ => by kk)

theorem s_effectModuleDeclaration : S W st (StmtRel W) effectModuleDeclaration effectModuleDeclaration :=
  s_kw hW (by decide) (fun _ => e0 (e_gap 0 _) fun _ => s_kw hW (by decide) (fun _ => e0 (e_gap 0 _) fun _ =>
    b0 (s_dotted hW) fun _ _ hn => e0 (e_gap 0 _) fun _ => s_kw hW (by decide) (fun _ => e0 (e_gap 0 _) fun _ =>
      b0 (s_delimited0 (e_char (by decide) (by decide)) (s_sepList (e_tag (by decide)) (.inl (by kk)) (.inl (by kk))
        (s_effectField hW)) (e_char (by decide) (by decide))) fun _ _ hf => s_exposing hW fun _ _ hx =>
          .effectModule hn hf hx) (by kk) (by kk)) (by kk) (by kk)) (by kk) (by kk)

theorem s_moduleDeclaration : S W st (StmtRel W) moduleDeclaration moduleDeclaration :=
  s_kw hW (by decide) (fun _ => e0 (e_gap 0 _) fun _ => b0 (s_dotted hW) fun _ _ hn =>
    s_exposing hW fun _ _ hx => .module hn hx) (by kk) (by kk)

/-- A keyword between spaces. -/
theorem e_between {k : Str} (hk : k ∈ keywords ++ openers) : E W (delimited spaces (tag k) spaces) :=
  e0 e_spaces fun _ => s_kw hW hk (fun _ => e0 e_spaces fun _ => s_pure rfl) (by kk) (by kk)

theorem s_importStatement : S W st (StmtRel W) importStatement importStatement :=
  s_kw hW (by decide) (fun _ => e0 e_spaces fun _ => b0 (s_dotted hW) fun _ _ hn =>
    b0 (s_opt (s_preceded (e_between hW (by decide)) (s_upName hW))) fun _ _ ho =>
    b0 (s_opt (s_preceded (e_between hW (by decide)) (s_exports hW))) fun _ _ hx => s_pure (.imports hn ho hx))
    (by kk) (by kk)

theorem s_typeAliasDeclaration : S W True (StmtRel W) typeAliasDeclaration typeAliasDeclaration :=
  s_kw hW (by decide) (fun _ => e0 e_spaces fun _ => s_kw hW (by decide) (fun _ => e0 e_spaces fun _ =>
    bE ((tyOk_tyRec hW).ty 0) (fun _ _ hn => e0 e_spaces fun _ => e0 (e_char (by decide) (by decide)) fun _ =>
      e0 (e_gap 1 _) fun _ => bO ((tyOk_tyRec hW).ann 1) (fun _ _ ht => s_pure (.typeAlias hn ht))
        (fun _ => by kk) (fun _ => by kk)) (fun _ => by kk) (fun _ => by kk)) (by kk) (by kk)) (by kk) (by kk)

theorem s_typeDeclaration : S W True (StmtRel W) (typeDeclaration 0) (typeDeclaration 0) :=
  s_kw hW (by decide) (fun _ => e0 e_spaces fun _ => bE ((tyOk_tyRec hW).ty 0) (fun _ _ hn => e0 (e_gap 0 _) fun j =>
    e0 (e_char (by decide) (by decide)) fun _ => e0 (e_gap j _) fun _ =>
    bO (s_sepNonemptyList (s_delimited0 (e_gap j _) (e_char (by decide) (by decide)) e_spaces) (.inl (by kk)) (.inl (by kk))
      (s_typeConstructorF hW (tyOk_tyRec hW) j)) (fun _ _ ht => s_pure (.type hn ht)) (fun _ => by kk) (fun _ => by kk))
    (fun _ => by kk) (fun _ => by kk)) (by kk) (by kk)

theorem s_portTypeDeclaration : S W True (StmtRel W) portTypeDeclaration portTypeDeclaration :=
  s_kw hW (by decide) (fun _ => e0 e_spaces fun _ => bE (s_loName hW) (fun _ _ hn => e0 e_spaces fun _ =>
    e0 (e_char (by decide) (by decide)) fun _ => e0 (e_gap 0 _) fun j => bO ((tyOk_tyRec hW).ann j)
      (fun _ _ ht => s_pure (.portType hn ht)) (fun _ => by kk) (fun _ => by kk)) (fun _ => by kk) (fun _ => by kk))
    (by kk) (by kk)

theorem s_portDeclaration : S W True (StmtRel W) portDeclaration portDeclaration :=
  s_kw hW (by decide) (fun _ => e0 e_spaces fun _ => bE (s_loName hW) (fun _ _ hn =>
    bE (s_many0 (s_preceded e_spaces (s_loName hW)) (by kk) (by kk)) (fun _ _ ha => e0 e_spaces fun _ =>
      e0 (e_char (by decide) (by decide)) fun _ => e0 (e_gap 0 _) fun j => bO (exOk_expression hW j)
        (fun _ _ he => s_pure (.port hn ha he)) (fun _ => by kk) (fun _ => by kk)) (fun _ => by kk) (fun _ => by kk))
    (fun _ => by kk) (fun _ => by kk)) (by kk) (by kk)

omit hW in
/-- What comes after the keyword of an infix declaration. -/
def infixTail (a : Assoc) : Parser Statement :=
  spaces >>= fun _ => digit >>= fun d =>
    (match parseI64 d with | some w => pure w | none => Parser.fail : Parser Int) >>= fun p =>
    spaces >>= fun _ => (loName </> operator) >>= fun n => pure (.InfixDeclaration a p n)

omit hW in
theorem infixTail_err (a : Assoc) {c : Char} (hc : IdentChar c) (r : Str) : infixTail a (c :: r) = .err := by
  have : spaces (c :: r) = .err := by
    have : c ≠ ' ' := by rintro rfl; exact absurd hc (by decide)
    simp [spaces, takeWhile1, this]
  unfold infixTail
  rw [bind_apply, this]
  rfl

omit hW in
theorem infixDeclaration_eq (s : Str) : infixDeclaration s =
    ((tag c!"infixl" >>= fun _ => infixTail .L) </> (tag c!"infixr" >>= fun _ => infixTail .R) </>
      (tag c!"infix" >>= fun _ => infixTail .N)) s := by
  have e : infixDeclaration s = (((value Assoc.L (tag c!"infixl") </> value Assoc.R (tag c!"infixr")
      </> value Assoc.N (tag c!"infix")) : Parser Assoc) s).andThen infixTail := by
    unfold infixDeclaration
    rw [bind_apply]
    congr 1
    funext a r
    unfold infixTail
    rw [bind_apply, bind_apply]
    congr 1
    funext _ r
    unfold mapRes
    rw [bind_apply, bind_apply, bind_apply]
    cases digit r with
    | ok d r => rw [andThen_ok, andThen_ok, bind_apply]; cases parseI64 d <;> rfl
    | _ => rfl
  rw [e]
  simp only [alt_apply, bind_apply, value, pmap_apply, tag]
  cases h : stripPrefix c!"infixl" s with
  | some r =>
    rw [stripPrefix_eq_some] at h
    subst h
    simp only [andThen_ok, orElse_ok]
    have h1 : stripPrefix c!"infixr" (c!"infixl" ++ r) = none := by simp [stripPrefix]
    have h2 : stripPrefix c!"infix" (c!"infixl" ++ r) = some ('l' :: r) := by simp [stripPrefix]
    rw [h1, h2]
    simp only [andThen_ok, andThen_err, orElse_err]
    rw [infixTail_err _ (by decide)]
    cases infixTail .L r <;> rfl
  | none =>
    simp only [andThen_err, orElse_err]
    cases h : stripPrefix c!"infixr" s with
    | some r =>
      rw [stripPrefix_eq_some] at h
      subst h
      simp only [andThen_ok, orElse_ok]
      have h2 : stripPrefix c!"infix" (c!"infixr" ++ r) = some ('r' :: r) := by simp [stripPrefix]
      rw [h2]
      simp only [andThen_ok]
      rw [infixTail_err _ (by decide)]
      cases infixTail .R r <;> rfl
    | none =>
      simp only [andThen_err, orElse_err]
      cases h : stripPrefix c!"infix" s <;> rfl

theorem s_infixTail (a : Assoc) : S W True (StmtRel W) (infixTail a) (infixTail a) := by
  have ke : ∀ d : Str, KE ((match parseI64 d with | some w => pure w | none => Parser.fail : Parser Int) >>= fun p =>
      spaces >>= fun _ => (loName </> operator) >>= fun n => pure (Statement.InfixDeclaration a p n)) := by
    intro d
    cases parseI64 d with
    | none => exact ke_bind ke_fail
    | some w => exact ke_bindO (ko_pure w) fun _ => by kk
  refine e0 e_spaces fun _ => bE (s_digit hW) (fun d d' hd => ?_) ke ke
  obtain ⟨h1, h2, h3, h4⟩ := hd
  by_cases h : decimal d ≤ i64Max
  · rw [parseI64_iff.2 ⟨rfl, h⟩, parseI64_iff.2 ⟨rfl, h4.1 h⟩]
    refine b0 (R := fun p p' => p = (decimal d : Int) ∧ p' = (decimal d' : Int)) (s_pure ⟨rfl, rfl⟩) fun p p' h => ?_
    obtain ⟨rfl, rfl⟩ := h
    exact e0 e_spaces fun _ => bO (s_alt (s_loName hW) (lift s_operator)) (fun _ _ hn => s_pure (.infix_ h1 h2 h3 hn))
        (fun _ => by kk) (fun _ => by kk)
  · have no : ∀ {d : Str}, ¬ decimal d ≤ i64Max → parseI64 d = none := by
      intro d h
      cases e : parseI64 d with
      | none => rfl
      | some w => exact absurd (parseI64_iff.1 e).2 h
    rw [no h, no fun h' => h (h4.2 h')]
    exact s_congr s_fail (fun _ => rfl) (fun _ => rfl)

theorem s_infixDeclaration : S W True (StmtRel W) infixDeclaration infixDeclaration :=
  s_congr (s_alt (s_kw hW (by decide) (fun _ => s_infixTail hW _) (ke_bind ke_spaces) (ke_bind ke_spaces))
    (s_alt (s_kw hW (by decide) (fun _ => s_infixTail hW _) (ke_bind ke_spaces) (ke_bind ke_spaces))
      (s_kw hW (by decide) (fun _ => s_infixTail hW _) (ke_bind ke_spaces) (ke_bind ke_spaces))))
    infixDeclaration_eq infixDeclaration_eq

theorem s_function (ind : Nat) : S W True (FunRel W) (function ind) (function ind) := s_functionF hW (exOk_expression hW) ind

theorem s_statement : S W True (StmtRel W) statement statement :=
  s_alt (s_portModuleDeclaration hW) <| s_alt (s_effectModuleDeclaration hW) <| s_alt (s_moduleDeclaration hW) <|
  s_alt (s_importStatement hW) <| s_alt (s_typeAliasDeclaration hW) <| s_alt (s_typeDeclaration hW) <|
  s_alt (s_portTypeDeclaration hW) <| s_alt (s_portDeclaration hW) <| s_alt (s_pmap (s_function hW 0) fun _ _ h => .fn h) <|
  s_alt (s_infixDeclaration hW) s_comment

theorem s_statements : S W True (Each (StmtRel W)) statements statements :=
  e0 e_multispace0 fun _ => bO (s_sepNonemptyList e_multispace0 (.inr ko_multispace0) (.inr ko_multispace0) (s_statement hW))
    (fun _ _ h => e0 e_multispace0 fun _ => s_pure h) (fun _ => by kk) (fun _ => by kk)

omit hW in
theorem e_eof : E W eof := fun s s' hs => by
  cases s with
  | nil => rw [(nil_iff hs).1 rfl]; exact sm_same rfl .nil
  | cons c s =>
    cases s' with
    | nil => exact absurd ((nil_iff hs).2 rfl) (by simp)
    | cons d s' => exact .err

theorem s_file : S W False (Each (StmtRel W)) file file := s_terminatedE (s_statements hW) e_eof ke_eof ke_eof

end

end Rn
end ElmParser
