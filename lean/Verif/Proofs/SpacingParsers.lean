import Verif.Proofs.SpacingTokens

/-! The simulation of `Proofs/Spacing.lean` for types, expressions, statements and files. -/
namespace ElmParser
open Spec Spec.Spacing Spec.Rename
set_option linter.unusedSectionVars false

namespace Lk

variable {α β γ δ : Type} {K : Str → Str → Prop} {R : α → β → Prop} {Q : γ → δ → Prop}

theorem s_congr {p p1 : Parser α} {p' p1' : Parser β} (h : S K R p1 p1') (e : ∀ s, p s = p1 s) (e' : ∀ s, p' s = p1' s) :
    S K R p p' := fun s s' hs => by rw [e, e']; exact h s s' hs

/-! ### Brackets -/

theorem e_commaSep (ind : Nat) : E K (commaSep ind) (commaSep ind) :=
  s_delimited (e_opt (e_gap ind _)) (e_char (by decide)) (e_opt (e_gap ind _))

/-- Something in brackets with optional white space. -/
theorem s_brackets (ind : Nat) {p : Parser α} {p' : Parser β} {a b : Char} (ha : Simple a) (hb : Simple b) (h : S K R p p') :
    S K R (delimited (preceded (char a) (opt (gap ind .GTE))) p (terminated (opt (gap ind .GTE)) (char b)))
      (delimited (preceded (char a) (opt (gap ind .GTE))) p' (terminated (opt (gap ind .GTE)) (char b))) :=
  s_delimited (s_preceded (e_char ha) (e_opt (e_gap ind _))) h (s_terminated (e_opt (e_gap ind _)) (e_char hb))

/-- Something that begins with a brace, and that is not a block comment. -/
theorem s_brace {p k : Parser α} {p' k' : Parser β} (e : ∀ s, p s = (char '{' s).andThen fun _ => k)
    (e' : ∀ s, p' s = (char '{' s).andThen fun _ => k') (hk : S K R k k')
    (h : ∀ x, Next (· ≠ '-') x → k ('-' :: x) = .err) (h' : ∀ x, Next (· ≠ '-') x → k' ('-' :: x) = .err) : S K R p p' :=
  fun s s' ⟨q, hs⟩ => by
  rw [e, e']
  cases s with
  | nil => rw [nilL hs]; exact .err
  | cons c s =>
    by_cases ec : c = '{'
    · subst ec
      rcases brace hs with ⟨t, rfl, -, g⟩ | ⟨w, w', r, r', rfl, rfl, h1, h2, h3, h4, -⟩
      · rw [char_cons, char_cons, andThen_ok, andThen_ok]
        exact (hk _ _ ⟨_, g⟩).mono id ⟨['{'], rfl⟩ ⟨['{'], rfl⟩ (by simp)
      · have next : ∀ {w r : Str}, w ≠ [] → Next (· ≠ '-') w → Next (· ≠ '-') (w ++ r) := by
          intro w r h1 h2
          cases w with
          | nil => exact absurd rfl h1
          | cons c w => exact next_cons.2 (next_cons (P := fun c => c ≠ '-') |>.1 h2)
        simp only [List.cons_append]
        rw [char_cons, char_cons, andThen_ok, andThen_ok, h _ (next h1 h3), h' _ (next h2 h4)]
        exact .err
    · obtain ⟨t, rfl⟩ := headL hs
      rw [char_cons_ne _ ec, char_cons_ne _ ec]
      exact .err

theorem dash_noGap {x : Str} (h : Next (· ≠ '-') x) : NoGap ('-' :: x) := by
  refine ⟨next_cons.2 (by decide), ?_⟩
  rintro t e
  obtain ⟨-, rfl⟩ := List.cons.inj e
  exact next_cons.1 h rfl
theorem dash_optGap {x : Str} (h : Next (· ≠ '-') x) (ind : Nat) (ir : IR) :
    opt (gap ind ir) ('-' :: x) = .ok none ('-' :: x) := by
  rw [opt_apply, gap_none (dash_noGap h)]
  rfl
theorem dash_loName (x : Str) : loName ('-' :: x) = .err := Rn.loName_err (by decide) (by decide)

/-- Fields in braces do not begin with a dash. -/
theorem dash_fields (ind : Nat) {sep : Parser α} {p : Parser β} (hp : ∀ x, p ('-' :: x) = .err) {x : Str} (h : Next (· ≠ '-') x) :
    ((opt (gap ind .GTE) >>= fun _ => sepList sep p >>= fun v => terminated (opt (gap ind .GTE)) (char '}') >>= fun _ => pure v) :
      Parser (List β)) ('-' :: x) = .err := by
  have hs : sepList sep p ('-' :: x) = .ok [] ('-' :: x) := by unfold sepList; rw [hp]
  rw [bind_apply, dash_optGap h, andThen_ok, bind_apply, hs, andThen_ok, bind_apply, terminated_apply, dash_optGap h]
  rfl

theorem delimited_brace {ind : Nat} {p : Parser α} (s : Str) :
    delimited (preceded (char '{') (opt (gap ind .GTE))) p (terminated (opt (gap ind .GTE)) (char '}')) s =
      (char '{' s).andThen fun _ =>
        opt (gap ind .GTE) >>= fun _ => p >>= fun v => terminated (opt (gap ind .GTE)) (char '}') >>= fun _ => pure v := by
  unfold delimited preceded
  rw [bind_apply, bind_apply]
  cases char '{' s <;> rfl

/-- Fields in braces. -/
theorem e_fields (ind : Nat) {sep : Parser α} {p p' : Parser β} (hsep : E K sep sep) (hp : E K p p')
    (h : ∀ x, p ('-' :: x) = .err) (h' : ∀ x, p' ('-' :: x) = .err) :
    E K (delimited (preceded (char '{') (opt (gap ind .GTE))) (sepList sep p) (terminated (opt (gap ind .GTE)) (char '}')))
      (delimited (preceded (char '{') (opt (gap ind .GTE))) (sepList sep p') (terminated (opt (gap ind .GTE)) (char '}'))) :=
  s_brace delimited_brace delimited_brace
    (e0 (e_opt (e_gap ind _)) fun _ => e0 (e_sepList hsep hp) fun _ =>
      a0 (s_terminated (e_opt (e_gap ind _)) (e_char (by decide))) fun _ _ => s_pure rfl)
    (fun _ hx => dash_fields ind h hx) (fun _ hx => dash_fields ind h' hx)

/-! ### Types -/

/-- The recursive calls agree. -/
structure TyOk (K : Str → Str → Prop) (rc rc' : TyRec) : Prop where
  ty : ∀ ind, E K (rc.type_ ind) (rc'.type_ ind)
  ann : ∀ ind, E K (rc.typeAnnotation ind) (rc'.typeAnnotation ind)

theorem e_typeConstant : E K typeConstant typeConstant := e_pmap _ e_dotted

section
variable {rc rc' : TyRec} (h : TyOk K rc rc') (ind : Nat)
include h

theorem e_typeTuple : E K (typeTuple rc ind) (typeTuple rc' ind) :=
  e_pmap _ (s_brackets ind (by decide) (by decide) (e_sepList (e_commaSep ind) (h.ty ind)))

theorem e_typeRecordPair : E K (typeRecordPair rc ind) (typeRecordPair rc' ind) :=
  e0 e_loName fun _ => e0 (e_opt (e_gap ind _)) fun _ => e0 (e_char (by decide)) fun _ =>
    e0 (e_opt (e_gap ind _)) fun _ => e0 (h.ann ind) fun _ => s_pure rfl
omit h in
theorem dash_typeRecordPair (x : Str) : typeRecordPair rc ind ('-' :: x) = .err := by
  unfold typeRecordPair
  rw [bind_apply, dash_loName]
  rfl

theorem e_typeRecordPairs : E K (typeRecordPairs rc ind) (typeRecordPairs rc' ind) :=
  e_sepList (e_commaSep ind) (e_typeRecordPair h ind)

theorem e_typeRecordConstructor : E K (typeRecordConstructor rc ind) (typeRecordConstructor rc' ind) :=
  s_brace (k := (do
      let _ ← gap ind .GTE
      let var ← typeVariable
      let _ ← gap ind .GTE
      let _ ← char '|'
      let _ ← gap ind .GTE
      let record_pairs ← typeRecordPairs rc ind
      let _ ← gap ind .GTE
      pure (.TypeRecordConstructor var record_pairs) : Parser Ty) >>= fun v => char '}' >>= fun _ => pure v)
    (k' := (do
      let _ ← gap ind .GTE
      let var ← typeVariable
      let _ ← gap ind .GTE
      let _ ← char '|'
      let _ ← gap ind .GTE
      let record_pairs ← typeRecordPairs rc' ind
      let _ ← gap ind .GTE
      pure (.TypeRecordConstructor var record_pairs) : Parser Ty) >>= fun v => char '}' >>= fun _ => pure v)
    (fun _ => rfl) (fun _ => rfl)
    (e0 (e0 (e_gap ind _) fun _ => e0 e_typeVariable fun _ => e0 (e_gap ind _) fun _ => e0 (e_char (by decide)) fun _ =>
      e0 (e_gap ind _) fun _ => e0 (e_typeRecordPairs h ind) fun _ => e0 (e_gap ind _) fun _ => s_pure rfl) fun _ =>
      e0 (e_char (by decide)) fun _ => s_pure rfl)
    (fun x hx => by rw [bind_apply, bind_apply, gap_none (dash_noGap hx)]; rfl)
    (fun x hx => by rw [bind_apply, bind_apply, gap_none (dash_noGap hx)]; rfl)

omit h in
theorem typeRecord_eq (s : Str) : typeRecord rc ind s = pmap (delimited (preceded (char '{') (opt (gap ind .GTE)))
    (typeRecordPairs rc ind) (terminated (opt (gap ind .GTE)) (char '}'))) .TypeRecord s := by
  unfold typeRecord
  rw [pmap_apply, delimited_apply, delimited_apply]
  cases preceded (char '{') (opt (gap ind .GTE)) s with
  | ok v r =>
    rw [andThen_ok, andThen_ok, pmap_apply]
    cases typeRecordPairs rc ind r with
    | ok v r =>
      rw [andThen_ok, andThen_ok, andThen_ok]
      cases terminated (opt (gap ind .GTE)) (char '}') r <;> rfl
    | _ => rfl
  | _ => rfl
theorem e_typeRecord : E K (typeRecord rc ind) (typeRecord rc' ind) :=
  s_congr (e_pmap _ (e_fields ind (e_commaSep ind) (e_typeRecordPair h ind) (dash_typeRecordPair ind) (dash_typeRecordPair ind)))
    (typeRecord_eq ind) (typeRecord_eq ind)

theorem e_typeParens : E K (typeParens rc ind) (typeParens rc' ind) := s_brackets ind (by decide) (by decide) (h.ann ind)

theorem e_typeParameter : E K (typeParameter rc ind) (typeParameter rc' ind) :=
  s_alt e_typeVariable <| s_alt e_typeConstant <| s_alt (e_typeRecordConstructor h ind) <|
  s_alt (e_typeRecord h ind) <| s_alt (e_typeTuple h ind) (e_typeParens h ind)

theorem e_typeConstructorF : E K (typeConstructorF rc ind) (typeConstructorF rc' ind) :=
  e0 e_dotted fun _ => e0 (e_many0 (p := typeArg rc ind) (p' := typeArg rc' ind)
    (e0 (e_gap ind _) fun j => e_typeParameter h j)) fun _ => s_pure rfl

theorem e_typeF : E K (typeF rc ind) (typeF rc' ind) :=
  s_alt (e_typeConstructorF h ind) <| s_alt e_typeVariable <| s_alt (e_typeRecordConstructor h ind) <|
  s_alt (e_typeRecord h ind) <| s_alt (e_typeTuple h ind) (e_typeParens h ind)

theorem e_typeAnnotationF : E K (typeAnnotationF rc ind) (typeAnnotationF rc' ind) :=
  s_congr (e_pmap _ (e_sepNonemptyList (sep := arrowSep) (sep' := arrowSep) (s_delimited a_sn e_arrow a_sn) (e_typeF h ind)))
    (Rn.typeAnnotationF_eq rc ind) (Rn.typeAnnotationF_eq rc' ind)
end

theorem tyOk_tyN (n m : Nat) : TyOk K (tyN n) (tyN m) := by
  induction n generalizing m with
  | zero => exact ⟨fun _ _ _ _ => .undefL (.inl rfl), fun _ _ _ _ => .undefL (.inl rfl)⟩
  | succ n ih =>
    cases m with
    | zero => exact ⟨fun _ _ _ _ => .undefR (.inl rfl), fun _ _ _ _ => .undefR (.inl rfl)⟩
    | succ m => exact ⟨fun ind => e_typeF (ih m) ind, fun ind => e_typeAnnotationF (ih m) ind⟩

theorem tyOk_tyRec : TyOk K tyRec tyRec where
  ty ind s s' hs := by
    have h := (tyOk_tyN (s.length + 1) (s'.length + 1)).ty ind s s' hs
    rw [tyRec]
    exact h
  ann ind s s' hs := by
    have h := (tyOk_tyN (s.length + 1) (s'.length + 1)).ann ind s s' hs
    rw [tyRec]
    exact h

/-! ### Expressions -/

theorem e_variableP : E K variableP variableP :=
  s_alt (e_pmap _ e_loName) (s_alt (e_pmap _ e_dotted)
    (e_pmap _ (s_delimited (e_char (by decide))
      (s_alt e_operator (e_takeWhile1 (by intro c h; simp at h; subst h; decide))) (e_char (by decide)))))
theorem e_dotName : E K dotName dotName := e0 (e_char (by decide)) fun _ => e_loName
theorem e_access : E K access access := e0 e_variableP fun _ => e0 (e_many1 e_dotName) fun _ => s_pure rfl
theorem e_accessFunction : E K accessFunction accessFunction :=
  e0 (e_char (by decide)) fun _ => e0 e_loName fun _ => s_pure rfl

theorem e_simplifiedField : E K simplifiedField simplifiedField :=
  a0 a_multispace0 fun _ _ => e0 e_loName fun _ => a0 a_multispace0 fun _ _ => s_pure rfl
theorem dash_simplifiedField (x : Str) : simplifiedField ('-' :: x) = .err := by
  have : multispace0 ('-' :: x) = .ok [] ('-' :: x) := rfl
  unfold simplifiedField
  rw [bind_apply, this, andThen_ok, bind_apply, dash_loName]
  rfl

/-- Fields in braces without white space. -/
theorem e_tightFields {sep : Parser α} {p : Parser β} (hsep : E K sep sep) (hp : E K p p) (h : ∀ x, p ('-' :: x) = .err) :
    E K (delimited (char '{') (sepList sep p) (char '}')) (delimited (char '{') (sepList sep p) (char '}')) :=
  s_brace (k := sepList sep p >>= fun v => char '}' >>= fun _ => pure v)
    (k' := sepList sep p >>= fun v => char '}' >>= fun _ => pure v) (fun _ => rfl) (fun _ => rfl)
    (e0 (e_sepList hsep hp) fun _ => e0 (e_char (by decide)) fun _ => s_pure rfl)
    (fun x _ => by rw [bind_apply, sepList, h]; rfl) (fun x _ => by rw [bind_apply, sepList, h]; rfl)

theorem e_simplifiedRecord : E K simplifiedRecord simplifiedRecord :=
  e_pmap _ (e_tightFields (e_char (by decide)) e_simplifiedField dash_simplifiedField)

/-- The recursive calls agree. -/
def ExOk (K : Str → Str → Prop) (rc rc' : ExprRec) : Prop := ∀ ind, E K (rc ind) (rc' ind)

section
variable {rc rc' : ExprRec} (h : ExOk K rc rc') (ind : Nat)
include h

theorem e_tuple : E K (tuple rc ind) (tuple rc' ind) :=
  e_pmap _ (s_delimited (e_char (by decide)) (e_sepList (e_char (by decide)) (s_delimited a_multispace0 (h ind) a_multispace0))
    (e_char (by decide)))

theorem e_list : E K (list rc ind) (list rc' ind) :=
  e_pmap _ (s_brackets ind (by decide) (by decide) (e_opt (e_sepList (e_commaSep ind) (h ind))))

theorem e_recordField : E K (recordField rc ind) (recordField rc' ind) :=
  e0 e_loName fun _ => a0 (s_delimited (e_opt (e_gap ind _)) (e_char (by decide)) (e_opt (e_gap ind _))) fun _ _ =>
    e0 (h ind) fun _ => s_pure rfl
omit h in
theorem dash_recordField (x : Str) : recordField rc ind ('-' :: x) = .err := by
  unfold recordField separatedPair
  rw [bind_apply, dash_loName]
  rfl

theorem e_record : E K (record rc ind) (record rc' ind) :=
  e_pmap _ (e_fields ind (e_commaSep ind) (e_recordField h ind) (dash_recordField ind) (dash_recordField ind))

theorem e_updateField : E K (updateField rc ind) (updateField rc' ind) :=
  e0 e_loName fun _ => a0 a_multispace0 fun _ _ => e0 (e_char (by decide)) fun _ => a0 a_multispace0 fun _ _ =>
    e0 (h ind) fun _ => s_pure rfl

omit h in
/-- A record update after its brace. -/
def updateTail (rc : ExprRec) (ind : Nat) : Parser Expr :=
  optGap ind .GTE >>= fun _ => (do
      let name ← loName
      let _ ← optGap ind .GTE
      let _ ← char '|'
      let _ ← multispace0
      let pairs ← sepList
        (delimited (optGap ind .GTE) (char ',') (optGap ind .GTE))
        (updateField rc ind)
      pure (.RecordUpdate name pairs) : Parser Expr) >>= fun v => terminated (gap ind .GTE) (char '}') >>= fun _ => pure v
omit h in
theorem recordUpdate_eq (s : Str) : recordUpdate rc ind s = (char '{' s).andThen fun _ => updateTail rc ind := by
  unfold recordUpdate updateTail delimited preceded
  rw [bind_apply, bind_apply]
  cases char '{' s <;> rfl
omit h in
theorem dash_update {x : Str} (hx : Next (· ≠ '-') x) : updateTail rc ind ('-' :: x) = .err := by
  have : optGap ind .GTE ('-' :: x) = .ok ind ('-' :: x) := by
    unfold optGap
    rw [pmap_apply, dash_optGap hx]
    rfl
  unfold updateTail
  rw [bind_apply, this, andThen_ok, bind_apply, bind_apply, dash_loName]
  rfl

theorem e_recordUpdate : E K (recordUpdate rc ind) (recordUpdate rc' ind) :=
  s_brace (recordUpdate_eq ind) (recordUpdate_eq ind)
    (e0 (e_optGap ind _) fun _ => e0 (e0 e_loName fun _ => e0 (e_optGap ind _) fun _ => e0 (e_char (by decide)) fun _ =>
      a0 a_multispace0 fun _ _ => e0 (e_sepList (s_delimited (e_optGap ind _) (e_char (by decide)) (e_optGap ind _))
        (e_updateField h ind)) fun _ => s_pure rfl) fun _ =>
      a0 (s_terminated (e_gap ind _) (e_char (by decide))) fun _ _ => s_pure rfl)
    (fun _ hx => dash_update ind hx) (fun _ hx => dash_update ind hx)

theorem e_parens : E K (parens rc ind) (parens rc' ind) := s_delimited (e_char (by decide)) (h ind) (e_char (by decide))

theorem e_termF : E K (termF rc ind) (termF rc' ind) :=
  s_alt e_access <| s_alt e_variableP <| s_alt e_accessFunction <| s_alt e_string <| s_alt e_float <| s_alt e_integer <|
  s_alt e_character <| s_alt (e_parens h ind) <| s_alt (e_list h ind) <| s_alt (e_tuple h ind) <|
  s_alt (e_recordUpdate h ind) <| s_alt (e_record h ind) e_simplifiedRecord

theorem e_lambda : E K (lambda rc ind) (lambda rc' ind) :=
  e0 (e_char (by decide)) fun _ => e0 (e_sepNonemptyList a_space1 (e_termF h ind)) fun _ => e0 (e_gap ind _) fun _ =>
    e0 e_arrow fun _ => e0 (e_gap ind _) fun j => e0 (h j) fun _ => s_pure rfl

theorem e_applicationOrVar : E K (applicationOrVar rc ind) (applicationOrVar rc' ind) :=
  s_congr (e_pmap _ (e_sepNonemptyList (e_gap ind _) (e_termF h ind))) (Rn.applicationOrVar_eq rc ind)
    (Rn.applicationOrVar_eq rc' ind)

omit h in
theorem e_functionNameOrOp : E K functionNameOrOp functionNameOrOp :=
  s_alt e_loName (s_delimited (e_char (by decide)) e_operator (e_char (by decide)))

omit h in
theorem e_functionSignature : E K (functionSignature ind) (functionSignature ind) :=
  e0 e_functionNameOrOp fun _ => a0 a_spaces fun _ _ => e0 (e_char (by decide)) fun _ => e0 (e_gap ind _) fun j =>
    e0 (tyOk_tyRec.ann j) fun _ => s_pure rfl

theorem e_functionDefinitionF : E K (functionDefinitionF rc ind) (functionDefinitionF rc' ind) :=
  e0 e_functionNameOrOp fun _ => e0 (e_many0 (s_preceded a_spaces (e_termF h ind))) fun _ => a0 a_spaces fun _ _ =>
    e0 (e_char (by decide)) fun _ => e0 (e_gap ind _) fun j => e0 (h j) fun _ => s_pure rfl

omit h in
/-- A blank line after a signature: no function. -/
theorem functionF_blank {s x : Str} {sg : FunctionSignature} {k : Nat} {ks : List Nat}
    (hs : functionSignature ind s = .ok sg ('\n' :: blankLines (k :: ks) ++ x)) (f : Function) (z : Str) :
    functionF rc ind s ≠ .ok f z := fun e => by
  unfold functionF at e
  simp only [bind_eq_ok] at e
  obtain ⟨o, s1, k1, df, s2, k2, -⟩ := e
  unfold functionDefinitionF at k2
  simp only [bind_eq_ok] at k2
  obtain ⟨_, t1, l1, as, t2, l2, _, t3, l3, _, t4, l4, -⟩ := k2
  have hsig := hs
  unfold functionSignature at hsig
  simp only [bind_eq_ok, char_eq_ok] at hsig
  obtain ⟨n, u1, m1, w, u2, m2, _, u3, ⟨-, rfl⟩, -⟩ := hsig
  rcases opt_eq_ok.1 k1 with ⟨sg', k3, -⟩ | ⟨-, -, rfl⟩
  · obtain ⟨q, _, k4, k5⟩ := terminated_eq_ok.1 k3
    obtain ⟨-, rfl⟩ := ok_inj hs k4
    obtain ⟨-, k', e, -, hn⟩ := newLineAndSameIndent_iff.1 k5
    have e := (List.cons.inj e).2
    have : s1 = '\n' :: (blankLines ks ++ x) := by
      have key : ∀ (a b : Nat) {c d : Str}, sp a ++ '\n' :: c = sp b ++ d → Next (· ≠ ' ') d → d = '\n' :: c := by
        intro a
        induction a with
        | zero =>
          intro b c d e hd
          cases b with
          | zero => exact e.symm
          | succ b => cases e
        | succ a ih =>
          intro b c d e hd
          cases b with
          | zero =>
            have e : ' ' :: (sp a ++ '\n' :: c) = d := e
            subst e
            exact absurd rfl (next_cons.1 hd)
          | succ b => exact ih b (List.cons.inj e).2 hd
      refine key k k' ?_ hn
      simpa [blankLines] using e
    subst this
    have : functionNameOrOp ('\n' :: (blankLines ks ++ x)) = .err := by
      unfold functionNameOrOp
      rw [alt_apply, Rn.loName_err (by decide) (by decide), delimited_apply, char_cons_ne _ (by decide)]
      rfl
    rw [this] at l1
    cases l1
  · obtain ⟨-, rfl⟩ := ok_inj m1 l1
    have hend : preceded spaces (termF rc ind) u1 = .err := by
      rw [preceded_apply, m2, andThen_ok]
      exact termF_err_head (by decide)
    have hm := many0_ok_of_run (.nil _) hend
    obtain ⟨-, rfl⟩ := ok_inj hm l2
    obtain ⟨-, rfl⟩ := ok_inj m2 l3
    rw [char_cons_ne _ (by decide)] at l4
    cases l4

omit h in
theorem sm_opt {p : Parser α} {p' : Parser β} {s s' : Str} (hs : T K s s') (h : Sm K R s s' (p s) (p' s')) :
    Sm K (Both R) s s' (opt p s) (opt p' s') := by
  rw [opt_apply, opt_apply]
  revert h
  generalize p s = x, p' s' = y
  intro h
  cases h with
  | ok h a k1 k2 k3 => exact .ok (.some h) a k1 k2 k3
  | err => exact sm_same .none hs
  | undefL h => rcases h with rfl | rfl <;> exact .undefL (by simp [Undef])
  | undefR h => rcases h with rfl | rfl <;> exact .undefR (by simp [Undef])

theorem e_functionF : E K (functionF rc ind) (functionF rc' ind) := fun s s' hs => by
  have key : Sm K Eq s s' (terminated (functionSignature ind) (newLineAndSameIndent ind) s)
        (terminated (functionSignature ind) (newLineAndSameIndent ind) s') ∨
      ((∀ f z, functionF rc ind s ≠ .ok f z) ∧ ∀ f z, functionF rc' ind s' ≠ .ok f z) := by
    have hg := e_functionSignature (K := K) ind s s' hs
    rw [terminated_apply, terminated_apply]
    cases e : functionSignature ind s with
    | ok v r =>
      cases e' : functionSignature ind s' with
      | ok v' r' =>
        rw [e, e'] at hg
        cases hg with
        | ok h1 h2 k1 k2 k3 =>
          subst h1
          rw [andThen_ok, andThen_ok]
          have fin : Sm K Eq r r' (newLineAndSameIndent ind r) (newLineAndSameIndent ind r') →
              Sm K Eq s s' ((newLineAndSameIndent ind r).andThen fun _ r => .ok v r)
                ((newLineAndSameIndent ind r').andThen fun _ r => .ok v r) := fun h =>
            (sm_andThen (Q := Eq) h fun _ _ _ _ _ ht => sm_same rfl ht).mono id k1 k2 k3
          have no : ∀ {c : Char} {x : Str}, c ≠ '\n' → newLineAndSameIndent ind (c :: x) = .err := by
            intro c x hc
            unfold newLineAndSameIndent
            rw [mapRes_apply, preceded_apply, char_cons_ne _ hc]
            rfl
          obtain ⟨p, h2⟩ := h2
          cases r with
          | nil => rw [nilL h2]; exact .inl .err
          | cons c r =>
            by_cases ec : c = '\n'
            · subst ec
              rcases newline h2 with ⟨t, rfl, g⟩ | ⟨k, ks, k', ks', q, q', rfl, rfl, -⟩
              · exact .inl (fin (e_lineEnd ind g rfl rfl))
              · exact .inr ⟨functionF_blank ind e, functionF_blank ind e'⟩
            · obtain ⟨t, rfl⟩ := headL h2
              left
              rw [no ec, no ec]
              exact .err
        | undefL h => rcases h with h | h <;> cases h
        | undefR h => rcases h with h | h <;> cases h
      | err =>
        rw [e, e'] at hg
        cases hg with
        | undefL h => rcases h with h | h <;> cases h
        | undefR h => rcases h with h | h <;> cases h
      | panic => exact .inl (.undefR (.inr rfl))
      | div => exact .inl (.undefR (.inl rfl))
    | err =>
      cases e' : functionSignature ind s' with
      | ok v r =>
        rw [e, e'] at hg
        cases hg with
        | undefL h => rcases h with h | h <;> cases h
        | undefR h => rcases h with h | h <;> cases h
      | err => exact .inl .err
      | panic => exact .inl (.undefR (.inr rfl))
      | div => exact .inl (.undefR (.inl rfl))
    | panic => exact .inl (.undefL (.inr rfl))
    | div => exact .inl (.undefL (.inl rfl))
  rcases key with key | ⟨k1, k2⟩
  · unfold functionF
    rw [bind_apply, bind_apply]
    refine sm_andThen (sm_opt hs key) fun o o' r r' ho ht => ?_
    cases both_eq ho
    exact e0 (e_functionDefinitionF h ind) (fun _ => s_pure rfl) r r' ht
  · cases e : functionF rc ind s with
    | ok f z => exact absurd e (k1 f z)
    | err =>
      cases e' : functionF rc' ind s' with
      | ok f z => exact absurd e' (k2 f z)
      | err => exact .err
      | panic => exact .undefR (.inr rfl)
      | div => exact .undefR (.inl rfl)
    | panic => exact .undefL (.inr rfl)
    | div => exact .undefL (.inl rfl)

theorem e_letBindingTarget : E K (letBindingTarget rc ind) (letBindingTarget rc' ind) :=
  s_alt e_variableP (s_alt (e_list h ind) (s_alt (e_tuple h ind) e_simplifiedRecord))

theorem e_letBinding : E K (letBinding rc ind) (letBinding rc' ind) :=
  e0 (e_letBindingTarget h ind) fun _ => e0 (e_gap ind _) fun _ => e0 (e_char (by decide)) fun _ =>
    e0 (e_gap ind _) fun j => e0 (h j) fun _ => s_pure rfl

theorem e_letEntry : E K (letEntry rc ind) (letEntry rc' ind) := s_alt (e_letBinding h ind) (e_pmap _ (e_functionF h ind))

theorem e_letExpression : E K (letExpression rc ind) (letExpression rc' ind) :=
  e0 (e_tag (by decide)) fun _ => e0 (e_gap ind _) fun j => e0 (e_sepNonemptyList (e_gap j _) (e_letEntry h j)) fun _ =>
    e0 (e_gap ind _) fun _ => e0 (e_tag (by decide)) fun _ => e0 (e_gap ind _) fun _ => e0 (h ind) fun _ => s_pure rfl

theorem e_caseBranch : E K (caseBranch rc ind) (caseBranch rc' ind) :=
  e0 (h ind) fun _ => e0 (e_gap ind _) fun _ => e0 e_arrow fun _ => e0 (e_gap ind _) fun j => e0 (h j) fun _ => s_pure rfl

theorem e_caseExpression : E K (caseExpression rc ind) (caseExpression rc' ind) :=
  e0 (e_tag (by decide)) fun _ => e0 (e_gap ind _) fun _ => e0 (h ind) fun _ => e0 (e_gap ind _) fun _ =>
    e0 (e_tag (by decide)) fun _ => e0 (e_gap ind _) fun j => e0 (e_sepNonemptyList (e_gap j _) (e_caseBranch h j)) fun _ =>
    s_pure rfl

theorem e_ifExpression : E K (ifExpression rc ind) (ifExpression rc' ind) :=
  e0 (e_tag (by decide)) fun _ => e0 (e_gap ind _) fun _ => e0 (h ind) fun _ => e0 (e_gap ind _) fun _ =>
    e0 (e_tag (by decide)) fun _ => e0 (e_gap ind _) fun j => e0 (h j) fun _ => e0 (e_gap ind _) fun _ =>
    e0 (e_tag (by decide)) fun _ => e0 (e_gap ind _) fun k => e0 (h k) fun _ => s_pure rfl

theorem e_binaryTail : E K (binaryTail rc ind) (binaryTail rc' ind) :=
  e0 (e_gap ind _) fun _ => e0 (e_pmap _ (s_alt (e_tag (by decide)) e_operator)) fun _ => a0 a_multispace fun _ _ =>
    e0 (h ind) fun _ => s_pure rfl

theorem e_binary : E K (binary rc ind) (binary rc' ind) :=
  e0 (e_applicationOrVar h ind) fun _ => e0 (e_opt (e_binaryTail h ind)) fun _ => s_pure rfl

theorem e_expressionF : E K (expressionF rc ind) (expressionF rc' ind) :=
  s_alt (e_binary h ind) <| s_alt (e_letExpression h ind) <| s_alt (e_caseExpression h ind) <|
  s_alt (e_ifExpression h ind) (e_lambda h ind)
end

theorem exOk_exprN (n m : Nat) : ExOk K (exprN n) (exprN m) := by
  induction n generalizing m with
  | zero => exact fun _ _ _ _ => .undefL (.inl rfl)
  | succ n ih =>
    cases m with
    | zero => exact fun _ _ _ _ => .undefR (.inl rfl)
    | succ m => exact fun ind => e_expressionF (ih m) ind

theorem exOk_expression : ExOk K expression expression := fun ind s s' hs =>
  exOk_exprN (s.length + 1) (s'.length + 1) ind s s' hs

theorem e_function (ind : Nat) : E K (function ind) (function ind) := e_functionF exOk_expression ind

/-! ### Statements -/

theorem e_lineComment : S K (StmtLike K) lineCommentStatement lineCommentStatement := fun s s' ⟨p, h⟩ => by
  have no : ∀ {x : Str}, (∀ t, x ≠ '-' :: '-' :: t) → lineCommentStatement x = .err := by
    intro x hx
    have : tag c!"--" x = .err := by
      rcases err_or_ok (fun k => cons_tag k '-' ['-']) x with e | ⟨v, r, e, -⟩
      · exact e
      · exact absurd (tag_eq_ok.1 e).2 (hx _)
    unfold lineCommentStatement
    rw [bind_apply, preceded_apply, this]
    rfl
  cases s with
  | nil => rw [nilL h]; exact .err
  | cons c s =>
    by_cases e : c = '-'
    · subst e
      rcases dash h with ⟨t, rfl, h1, g⟩ | ⟨u, v, r, r', -, rfl, rfl, g1, g2, -, -, g3, g4, g5⟩ |
        ⟨w, r, r', rfl, rfl, g1, g2, g3⟩
      · rw [no, no]
        · exact .err
        · rintro x e
          obtain ⟨-, rfl⟩ := List.cons.inj e
          exact next_cons.1 ((next_iff g).1 h1) rfl
        · rintro x e
          obtain ⟨-, rfl⟩ := List.cons.inj e
          exact next_cons.1 h1 rfl
      · have a : lineCommentStatement ('-' :: '-' :: u ++ r) = _ := lineCommentStatement_iff.2 ⟨u, rfl, rfl, g1, g3⟩
        have b : lineCommentStatement ('-' :: '-' :: v ++ r') = _ :=
          lineCommentStatement_iff.2 ⟨v, rfl, rfl, g2, (next_iff g5).1 g3⟩
        simp only [List.cons_append] at a b ⊢
        rw [a, b]
        exact sm_ok (.comment g4) ⟨_, g5⟩ (u := '-' :: '-' :: u) (u' := '-' :: '-' :: v) rfl rfl (by simp) (by simp)
      · have hw : '\n' ∉ w := fun h => (g1 _ h).2.2.1 rfl
        have a : lineCommentStatement ('-' :: '-' :: w ++ r) = _ := lineCommentStatement_iff.2 ⟨w, rfl, rfl, hw, g2⟩
        have b : lineCommentStatement ('-' :: '-' :: w ++ r') = _ :=
          lineCommentStatement_iff.2 ⟨w, rfl, rfl, hw, (next_iff g3).1 g2⟩
        simp only [List.cons_append] at a b ⊢
        rw [a, b]
        exact sm_ok .same ⟨_, g3⟩ (u := '-' :: '-' :: w) (u' := '-' :: '-' :: w) rfl rfl (by simp) (by simp)
    · obtain ⟨t, rfl⟩ := headL h
      rw [no, no]
      · exact .err
      · rintro x ex
        exact e (List.cons.inj ex).1
      · rintro x ex
        exact e (List.cons.inj ex).1

theorem until_block {w : Str} (hw : ¬ c!"-}" <:+: w) (r : Str) :
    takeUntilAndConsume c!"-}" (w ++ '-' :: '}' :: r) = .ok w r := by
  have : findSubstring c!"-}" (w ++ '-' :: '}' :: r) = some (w, r) := by
    induction w with
    | nil => exact Rn.find_here r
    | cons c w ih =>
      have ih := ih fun h => hw (h.trans (List.suffix_cons c w).isInfix)
      have : stripPrefix c!"-}" (c :: (w ++ '-' :: '}' :: r)) = none := by
        cases e : stripPrefix c!"-}" (c :: (w ++ '-' :: '}' :: r)) with
        | none => rfl
        | some x =>
          have e := stripPrefix_eq_some.1 e
          obtain ⟨rfl, e2⟩ := List.cons.inj e
          cases w with
          | nil => exact absurd (List.cons.inj e2).1 (by decide)
          | cons d w =>
            have : d = '}' := (List.cons.inj e2).1
            subst this
            exact absurd ⟨[], w, rfl⟩ hw
      rw [List.cons_append, findSubstring, this, ih]
  unfold takeUntilAndConsume
  rw [this]

theorem e_blockComment : S K (StmtLike K) multiLineComment multiLineComment := fun s s' ⟨p, h⟩ => by
  have apply : ∀ x, multiLineComment x = (tag c!"{-" x).andThen fun _ r =>
      (takeUntilAndConsume c!"-}" r).andThen fun v r => .ok (.Comment v) r := by
    intro x
    unfold multiLineComment
    rw [pmap_apply, preceded_apply]
    cases tag c!"{-" x <;> rfl
  have yes : ∀ {w r : Str}, ¬ c!"-}" <:+: w → multiLineComment ('{' :: '-' :: w ++ '-' :: '}' :: r) = .ok (.Comment w) r := by
    intro w r hw
    have e : tag c!"{-" ('{' :: '-' :: w ++ '-' :: '}' :: r) = .ok c!"{-" (w ++ '-' :: '}' :: r) := tag_append c!"{-" _
    rw [apply, e, andThen_ok, until_block hw]
    rfl
  cases s with
  | nil => rw [nilL h]; exact .err
  | cons c s =>
    by_cases e : c = '{'
    · subst e
      rcases brace h with ⟨t, rfl, h1, g⟩ | ⟨w, w', r, r', rfl, rfl, -, -, -, -, h5, h6, h7, g⟩
      · have no : ∀ {x : Str}, Next (· ≠ '-') x → multiLineComment ('{' :: x) = .err := by
          intro x hx
          rw [apply, tag2, char_cons, andThen_ok]
          cases x with
          | nil => rfl
          | cons d x => rw [char_cons_ne _ (next_cons (P := fun c => c ≠ '-') |>.1 hx)]; rfl
        rw [no h1, no ((next_iff g).1 h1)]
        exact .err
      · have a := yes (r := r) h5
        have b := yes (r := r') h6
        rw [List.cons_append] at a
        rw [a, b]
        exact sm_ok (.comment h7) ⟨_, g⟩ (u := '{' :: '-' :: w ++ c!"-}") (u' := '{' :: '-' :: w' ++ c!"-}")
          (by simp) (by simp) (by simp) (by simp)
    · obtain ⟨t, rfl⟩ := headL h
      rw [apply, apply, tag_cons_ne e, tag_cons_ne e]
      exact .err

theorem s_comment : S K (StmtLike K) comment comment := s_alt e_lineComment e_blockComment

theorem e_allExport : E K allExport allExport := e_pmap _ (e_tag (by decide))
theorem e_functionExport : E K functionExport functionExport :=
  e_pmap _ (s_alt e_functionName (s_delimited (e_char (by decide)) e_operator (e_char (by decide))))
theorem e_constructorExports : E K constructorExports constructorExports :=
  e_opt (s_delimited (e_char (by decide)) (s_alt e_allExport
    (e_pmap _ (e_sepNonemptyList e_commaSpace (e_pmap _ e_upName)))) (e_char (by decide)))
theorem e_typeExport : E K typeExport typeExport := e0 e_upName fun _ => e0 e_constructorExports fun _ => s_pure rfl
theorem e_subsetExport : E K subsetExport subsetExport :=
  e_pmap _ (e_sepNonemptyList (s_delimited (s_opt a_sn) (e_char (by decide)) (s_opt a_sn)) (s_alt e_functionExport e_typeExport))
theorem e_exports : E K exports exports := s_brackets 0 (by decide) (by decide) (s_alt e_allExport e_subsetExport)
theorem e_moduleName : E K moduleName moduleName := e_dotted

theorem e_portModuleDeclaration : E K portModuleDeclaration portModuleDeclaration :=
  e0 (e_tag (by decide)) fun _ => e0 (e_gap 0 _) fun _ => e0 (e_tag (by decide)) fun _ => e0 (e_gap 0 _) fun _ =>
    e0 e_moduleName fun _ => e0 (e_gap 0 _) fun _ => e0 (e_tag (by decide)) fun _ => e0 (e_gap 0 _) fun _ =>
    e0 e_exports fun _ => s_pure rfl

theorem e_effectField : E K effectField effectField :=
  e0 e_loName fun _ => a0 (s_opt a_spaces) fun _ _ => e0 (e_char (by decide)) fun _ => a0 (s_opt a_spaces) fun _ _ =>
    e0 e_upName fun _ => s_pure rfl
theorem dash_effectField (x : Str) : effectField ('-' :: x) = .err := by
  unfold effectField
  rw [bind_apply, dash_loName]
  rfl

theorem e_effectModuleDeclaration : E K effectModuleDeclaration effectModuleDeclaration :=
  e0 (e_tag (by decide)) fun _ => e0 (e_gap 0 _) fun _ => e0 (e_tag (by decide)) fun _ => e0 (e_gap 0 _) fun _ =>
    e0 e_moduleName fun _ => e0 (e_gap 0 _) fun _ => e0 (e_tag (by decide)) fun _ => e0 (e_gap 0 _) fun _ =>
    e0 (e_tightFields e_commaSpace e_effectField dash_effectField) fun _ => e0 (e_gap 0 _) fun _ =>
    e0 (e_tag (by decide)) fun _ => e0 (e_gap 0 _) fun _ => e0 e_exports fun _ => s_pure rfl

theorem e_moduleDeclaration : E K moduleDeclaration moduleDeclaration :=
  e0 (e_tag (by decide)) fun _ => e0 (e_gap 0 _) fun _ => e0 e_moduleName fun _ => e0 (e_gap 0 _) fun _ =>
    e0 (e_tag (by decide)) fun _ => e0 (e_gap 0 _) fun _ => e0 e_exports fun _ => s_pure rfl

theorem e_importStatement : E K importStatement importStatement :=
  e0 (e_tag (by decide)) fun _ => a0 a_spaces fun _ _ => e0 e_moduleName fun _ =>
    e0 (e_opt (s_preceded (s_delimited a_spaces (e_tag (by decide)) a_spaces) e_upName)) fun _ =>
    e0 (e_opt (s_preceded (s_delimited a_spaces (e_tag (by decide)) a_spaces) e_exports)) fun _ => s_pure rfl

theorem e_typeAliasDeclaration : E K typeAliasDeclaration typeAliasDeclaration :=
  e0 (e_tag (by decide)) fun _ => a0 a_spaces fun _ _ => e0 (e_tag (by decide)) fun _ => a0 a_spaces fun _ _ =>
    e0 (tyOk_tyRec.ty 0) fun _ => a0 a_spaces fun _ _ => e0 (e_char (by decide)) fun _ => e0 (e_gap 1 _) fun _ =>
    e0 (tyOk_tyRec.ann 1) fun _ => s_pure rfl

theorem e_typeDeclaration (ind : Nat) : E K (typeDeclaration ind) (typeDeclaration ind) :=
  e0 (e_tag (by decide)) fun _ => a0 a_spaces fun _ _ => e0 (tyOk_tyRec.ty ind) fun _ => e0 (e_gap 0 _) fun j =>
    e0 (e_char (by decide)) fun _ => e0 (e_gap j _) fun _ =>
    e0 (e_sepNonemptyList (s_delimited (e_gap j _) (e_char (by decide)) a_spaces) (e_typeConstructorF tyOk_tyRec j)) fun _ =>
    s_pure rfl

theorem e_portTypeDeclaration : E K portTypeDeclaration portTypeDeclaration :=
  e0 (e_tag (by decide)) fun _ => a0 a_spaces fun _ _ => e0 e_loName fun _ => a0 a_spaces fun _ _ =>
    e0 (e_char (by decide)) fun _ => e0 (e_gap 0 _) fun j => e0 (tyOk_tyRec.ann j) fun _ => s_pure rfl

theorem e_portDeclaration : E K portDeclaration portDeclaration :=
  e0 (e_tag (by decide)) fun _ => a0 a_spaces fun _ _ => e0 e_loName fun _ =>
    e0 (e_many0 (s_preceded a_spaces e_loName)) fun _ => a0 a_spaces fun _ _ =>
    e0 (e_char (by decide)) fun _ => e0 (e_gap 0 _) fun j => e0 (exOk_expression j) fun _ => s_pure rfl

theorem e_infixDeclaration : E K infixDeclaration infixDeclaration :=
  e0 (s_alt (e_pmap _ (e_tag (by decide))) (s_alt (e_pmap _ (e_tag (by decide))) (e_pmap _ (e_tag (by decide))))) fun _ =>
    a0 a_spaces fun _ _ => e0 (e_mapRes _ e_digit) fun _ => a0 a_spaces fun _ _ => e0 (s_alt e_loName e_operator) fun _ =>
    s_pure rfl

theorem same {p p' : Parser Statement} (h : E K p p') : S K (StmtLike K) p p' := s_mono h fun e => e ▸ .same

theorem s_statement : S K (StmtLike K) statement statement :=
  s_alt (same e_portModuleDeclaration) <| s_alt (same e_effectModuleDeclaration) <| s_alt (same e_moduleDeclaration) <|
  s_alt (same e_importStatement) <| s_alt (same e_typeAliasDeclaration) <| s_alt (same (e_typeDeclaration 0)) <|
  s_alt (same e_portTypeDeclaration) <| s_alt (same e_portDeclaration) <| s_alt (same (e_pmap _ (e_function 0))) <|
  s_alt (same e_infixDeclaration) s_comment

theorem s_statements : S K (Each (StmtLike K)) statements statements :=
  s_delimited a_multispace0 (s_sepNonemptyList a_multispace0 s_statement) a_multispace0

theorem e_eof : E K eof eof := fun s s' ⟨p, h⟩ => by
  cases s with
  | nil => rw [nilL h]; exact sm_same rfl ⟨p, .nil⟩
  | cons c s =>
    obtain ⟨t, rfl⟩ := headL h
    exact .err

theorem s_file : S K (Each (StmtLike K)) file file := s_terminated s_statements e_eof

end Lk
end ElmParser
