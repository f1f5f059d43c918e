import Verif.Proofs.Linear

/-! Types and declarations without expressions call `expression` not at all; so much a whole file costs. -/
namespace ElmParser
namespace Trace
open Spec
@[inherit_doc] local infixr:20 " </> " => alt
variable {α β γ : Type}

/-- The parser never calls `expression`. -/
def Silent (p : TP α) : Prop := ∀ s, calls (p s) = 0

theorem si_free (p : Parser α) : Silent (free p) := fun _ => rfl
theorem si_pure (v : α) : Silent (pure v : TP α) := fun _ => rfl
theorem si_bind {p : TP α} {f : α → TP β} (h : Silent p) (hf : ∀ v, Silent (f v)) : Silent (p >>= f) := fun s =>
  (calls_bind_free (fun v r => hf v r)).trans (h s)
theorem si_alt {p q : TP α} (h : Silent p) (h' : Silent q) : Silent (p </> q) := fun s => calls_alt_zero (h s) (h' s)
theorem si_pmap {p : TP α} {f : α → β} (h : Silent p) : Silent (pmap p f) := si_bind h fun _ => si_pure _
theorem si_opt {p : TP α} (h : Silent p) : Silent (opt p) := si_alt (si_pmap h) (si_pure _)
theorem si_preceded {p : TP α} {q : TP β} (h : Silent p) (h' : Silent q) : Silent (preceded p q) := si_bind h fun _ => h'
theorem si_terminated {p : TP α} {q : TP β} (h : Silent p) (h' : Silent q) : Silent (terminated p q) :=
  si_bind h fun _ => si_bind h' fun _ => si_pure _
theorem si_delimited {p : TP α} {q : TP β} {t : TP γ} (h : Silent p) (h' : Silent q) (h'' : Silent t) : Silent (delimited p q t) :=
  si_bind h fun _ => si_bind h' fun _ => si_bind h'' fun _ => si_pure _

theorem si_step {x : Res α × List Event} (hx : calls x = 0) {f : α → TP β} (hf : ∀ v, Silent (f v)) : calls (andThen x f) = 0 := by
  rcases ok_or x with ⟨v, r, e⟩ | e
  · rw [calls_andThen_ok (f := f) e, hx, hf v r]
  · rw [(calls_andThen_ne (f := f) e).1, hx]

theorem si_many0 {p : TP α} (h : Silent p) : Silent (many0 p) := fun s => by
  unfold many0
  generalize s.length + 1 = n
  induction n generalizing s with
  | zero => rfl
  | succ n ih =>
    have hp := h s
    unfold many0Loop
    cases e : p s with
    | mk x k =>
      rw [e] at hp
      cases x with
      | err => exact hp
      | panic => exact hp
      | div => exact hp
      | ok v r =>
        simp only
        split
        · exact hp
        · exact si_step (x := (.ok v r, k)) hp fun v => si_bind (p := many0Loop p n) ih fun _ => si_pure _

theorem si_sepLoop {sep : TP β} {p : TP α} (hs : Silent sep) (h : Silent p) (n : Nat) : Silent (sepLoop sep p n) := by
  induction n with
  | zero => exact si_free _
  | succ n ih =>
    intro s
    have h0 := hs s
    unfold sepLoop
    cases e : sep s with
    | mk x k =>
      rw [e] at h0
      cases x with
      | err => exact h0
      | panic => exact h0
      | div => exact h0
      | ok w s2 =>
        simp only
        split
        · exact h0
        · have hp := h s2
          cases e : p s2 with
          | mk x l =>
            rw [e] at hp
            have hkl : ∀ y : Res (List α), calls (y, k ++ l) = 0 := fun y => by
              rw [calls_append, calls_same y (.ok w s2) k, calls_same y x l, h0, hp]
            cases x with
            | err => exact hkl _
            | panic => exact hkl _
            | div => exact hkl _
            | ok v s3 =>
              simp only
              split
              · exact hkl _
              · exact si_step (x := (.ok v s3, k ++ l)) (hkl .err) fun v => si_bind ih fun _ => si_pure _

theorem si_sepNonemptyList {sep : TP β} {p : TP α} (hs : Silent sep) (h : Silent p) : Silent (sepNonemptyList sep p) := fun s => by
  unfold sepNonemptyList
  refine si_step (h s) fun v r => ?_
  split
  · rfl
  · exact si_bind (si_sepLoop hs h _) (fun _ => si_pure _) r

theorem si_sepList {sep : TP β} {p : TP α} (hs : Silent sep) (h : Silent p) : Silent (sepList sep p) := fun s => by
  have hp := h s
  unfold sepList
  cases e : p s with
  | mk x k =>
    rw [e] at hp
    cases x with
    | err => exact hp
    | panic => exact hp
    | div => exact hp
    | ok v r =>
      simp only
      split
      · exact hp
      · exact si_step (x := (.ok v r, k)) hp fun v => si_bind (si_sepLoop hs h _) fun _ => si_pure _

theorem si_mark {p : TP α} (h : Silent p) : Silent (mark .ty p) := fun s => by
  have := h s
  unfold calls num mark at *
  rw [List.countP_cons_of_neg (by simp)]
  exact this

macro "si_tac" : tactic => `(tactic| repeat' first
  | with_reducible exact si_free _
  | with_reducible exact si_pure _
  | assumption
  | with_reducible apply si_alt
  | with_reducible apply si_pmap
  | with_reducible apply si_opt
  | with_reducible apply si_preceded
  | with_reducible apply si_terminated
  | with_reducible apply si_delimited
  | with_reducible apply si_many0
  | with_reducible apply si_sepNonemptyList
  | with_reducible apply si_sepList
  | with_reducible refine si_bind ?_ fun _ => ?_)

/-- Both entry points. -/
structure TySi (R : TyTRec) : Prop where
  ty : ∀ ind, Silent (R.type_ ind)
  ann : ∀ ind, Silent (R.typeAnnotation ind)

section
variable {R : TyTRec} (h : TySi R) (ind : Nat)
include h

theorem si_typeTuple : Silent (typeTuple R ind) := by
  have := h.ty ind; unfold typeTuple; si_tac
theorem si_typeRecordPairs : Silent (typeRecordPairs R ind) := by
  have := h.ann ind; unfold typeRecordPairs typeRecordPair; si_tac
theorem si_typeRecordConstructor : Silent (typeRecordConstructor R ind) := by
  have := si_typeRecordPairs h ind; unfold typeRecordConstructor; si_tac
theorem si_typeRecord : Silent (typeRecord R ind) := by
  have := si_typeRecordPairs h ind; unfold typeRecord; si_tac
theorem si_typeParens : Silent (typeParens R ind) := by
  have := h.ann ind; unfold typeParens; si_tac
theorem si_typeParameter : Silent (typeParameter R ind) := by
  have h1 := si_typeTuple h ind
  have h2 := si_typeRecordConstructor h ind
  have h3 := si_typeRecord h ind
  have h4 := si_typeParens h ind
  unfold typeParameter; si_tac
theorem si_typeConstructorF : Silent (typeConstructorF R ind) := by
  have h1 := si_typeParameter h
  unfold typeConstructorF typeArg; si_tac
  exact h1 _
theorem si_typeF : Silent (typeF R ind) := by
  have h0 := si_typeConstructorF h ind
  have h1 := si_typeTuple h ind
  have h2 := si_typeRecordConstructor h ind
  have h3 := si_typeRecord h ind
  have h4 := si_typeParens h ind
  unfold typeF
  apply si_mark
  si_tac
theorem si_typeAnnotationF : Silent (typeAnnotationF R ind) := by
  unfold typeAnnotationF
  refine si_bind (si_sepNonemptyList (si_free _) (si_typeF h ind)) fun v => ?_
  split
  · exact si_free _
  · split
    · exact si_free _
    · generalize buildArrows v.reverse = o
      cases o
      · exact si_free _
      · exact si_pure _
end

theorem si_tyN (n : Nat) : TySi (tyN n) := by
  induction n with
  | zero => exact ⟨fun _ => si_free _, fun _ => si_free _⟩
  | succ n ih => exact ⟨si_typeF ih, si_typeAnnotationF ih⟩

theorem si_tyRec : TySi tyRec where
  ty ind s := by
    show calls ((tyN (s.length + 1)).type_ ind s) = 0
    exact (si_tyN _).ty ind s
  ann ind s := by
    show calls ((tyN (s.length + 1)).typeAnnotation ind s) = 0
    exact (si_tyN _).ann ind s

theorem si_functionSignature (ind : Nat) : Silent (functionSignature ind) := by
  have := si_tyRec.ann
  unfold functionSignature typeAnnotation; si_tac
  exact this _

theorem si_typeAliasDeclaration : Silent typeAliasDeclaration := by
  have h1 := si_tyRec.ty 0
  have h2 := si_tyRec.ann 1
  unfold typeAliasDeclaration type_ typeAnnotation; si_tac

theorem si_typeDeclaration (ind : Nat) : Silent (typeDeclaration ind) := by
  have h1 := si_tyRec.ty ind
  have h2 := si_typeConstructorF si_tyRec
  unfold typeDeclaration type_ typeConstructor; si_tac
  exact h2 _

theorem si_portTypeDeclaration : Silent portTypeDeclaration := by
  have := si_tyRec.ann
  unfold portTypeDeclaration typeAnnotation; si_tac
  exact this _

/-! ### Functions -/

/-- The arguments of a function are read like a list with spaces as separators. -/
theorem many0_sepLoop {sep : Parser β} {p : TP α} (hs : ∀ k, Cons k sep)
    (hp : ∀ t v r, (p t).1 = .ok v r → r <:+ t ∧ r.length < t.length) (n : Nat) (s : Str) :
    many0Loop (preceded (free sep) p) n s = sepLoop (free sep) p n s := by
  induction n generalizing s with
  | zero => rfl
  | succ n ih =>
    unfold many0Loop sepLoop
    have e0 : preceded (free sep) p s = andThen (free sep s) fun _ => p := rfl
    rw [e0]
    unfold free
    cases e : sep s with
    | err => rfl
    | panic => rfl
    | div => rfl
    | ok w s2 =>
      have hl := lt_of_ok hs e
      simp only [andThen]
      rw [if_neg (show ¬ s2.length = s.length by omega)]
      have hp := hp s2
      cases e : p s2 with
      | mk x k =>
        rw [e] at hp
        cases x with
        | err => rfl
        | panic => rfl
        | div => rfl
        | ok v r =>
          obtain ⟨-, hl'⟩ := hp v r rfl
          simp only
          rw [if_neg (by rintro rfl; omega), if_neg (show ¬ r.length = s2.length by omega)]
          have : ∀ v, (do let vs ← many0Loop (preceded (free sep) p) n; pure (v :: vs) : TP (List α)) r =
              (do let vs ← sepLoop (free sep) p n; pure (v :: vs) : TP (List α)) r := fun v => by
            show andThen (many0Loop _ n r) _ = andThen (sepLoop _ _ n r) _
            rw [ih]
          have := this v
          unfold free at this
          rw [this]

theorem once_stop0 {p : TP α} {f : α → TP β} {D : Str → Prop} {s : Str} (h : Counted s.length D (p s))
    (h1 : ∀ v r, (p s).1 = .ok v r → Once 0 r (f v r)) (h2 : ∀ v r, (p s).1 = .ok v r → D r → None (f v r)) :
    Once 0 s ((p >>= f) s) := by
  show Once 0 s (andThen (p s) f)
  rcases ok_or (p s) with ⟨v, r, e⟩ | e
  · have ec := calls_andThen_ok (f := f) e
    have ef := andThen_fst (f := f) e
    rcases h.2 v r e with hc | hd
    · obtain ⟨k1, k2⟩ := h1 v r e
      refine ⟨by omega, fun w q eq => ?_⟩
      rw [ef] at eq
      rcases k2 w q eq with k | k
      · exact .inl (by omega)
      · exact .inr k
    · obtain ⟨k1, k2⟩ := h2 v r e hd
      have := h.1
      refine ⟨by omega, fun w q eq => ?_⟩
      rw [ef] at eq
      exact absurd eq (k2 w q)
  · obtain ⟨ec, ef⟩ := calls_andThen_ne (f := f) e
    exact ⟨by rw [ec]; have := h.1; omega, fun w q eq => absurd eq (ef w q)⟩

/-- The sign after the arguments, and the body. -/
theorem once_body {ir : IR} {ind : Nat} {s : Str} (hs : Straight s) {f : Expr → α} : Once 0 s ((do
    let _ ← free spaces
    let _ ← free (char '=')
    let new_indent ← free (gap ind ir)
    let body ← expression new_indent
    pure (f body) : TP α) s) := by
  refine once_free (b := 0) (Nat.zero_le _) fun v r4 e => ?_
  have l4 := lt_of_ok cons_spaces e
  have s4 := suffix_of_ok (fun k => (cons_spaces k).good) e
  refine ⟨by omega, once_free (b := 0) (Nat.zero_le _) fun v r5 e => ?_⟩
  have l5 := lt_of_ok (fun k => cons_char k _) e
  have s5 := (suffix_of_ok (fun k => (cons_char k _).good) e).trans s4
  refine ⟨by omega, once_free (b := 0) (Nat.zero_le _) fun i r6 e => ?_⟩
  have l6 := lt_of_ok (fun k => cons_gap k ind ir) e
  have s6 := (suffix_of_ok (fun k => (cons_gap k ind ir).good) e).trans s5
  exact ⟨by omega, once_bind (shorter_all s.length i r6 (by omega) (hs.suffix s6)) (fun v r _ => once_pure _ _)
    fun v r _ h => quiet_pure _ _ h⟩

theorem once_functionDefinition (ind : Nat) {s : Str} (hs : Straight s) : Once 0 s (functionDefinitionF expression ind s) := by
  unfold functionDefinitionF
  refine once_free (b := 0) (Nat.zero_le _) fun v r1 e => ?_
  have l1 := lt_of_ok cons_functionNameOrOp e
  have s1 := suffix_of_ok (fun k => (cons_functionNameOrOp k).good) e
  have hi := items_terms (ind := ind) (sep := spaces) (D := fun r => ∀ x t, spaces r = .ok x t → char '=' t = .err) cons_spaces
    (shorter_all _) hs (fun t u x e hu x' u' e' => by
      rw [e] at e'; cases e'
      obtain ⟨z, rfl | rfl⟩ := hu <;> exact char_cons_ne _ (by decide)) s1 l1
  have hc := counted_sepLoop hi (r1.length + 1) r1 (List.suffix_refl _)
  rw [← many0_sepLoop cons_spaces (st_term ind)] at hc
  refine ⟨by omega, once_stop0 (p := many0 (preceded (free spaces) (termF expression ind))) hc (fun v r2 e => ?_) fun v r2 e h => ?_⟩
  · refine once_body (hs.suffix (List.IsSuffix.trans ?_ s1))
    exact suffix_of_ok (fun k => good_many0 (good_preceded (cons_spaces k).good (cons_termE k ind).good))
      ((er_many0 (er_preceded (er_free _) (er_termF er_expression ind)) _).symm.trans e)
  · refine stops fun i t e => stopped fun w q e' => ?_
    rw [h i t e] at e'; cases e'

theorem calls_function (ind : Nat) {s : Str} (hs : Straight s) : calls (function ind s) ≤ s.length + 1 := by
  unfold function functionF
  have h1 : Silent (opt (terminated (functionSignature ind) (free (newLineAndSameIndent ind)))) := by
    have := si_functionSignature ind
    si_tac
  show calls (andThen (opt (terminated (functionSignature ind) (free (newLineAndSameIndent ind))) s) _) ≤ _
  rcases ok_or (opt (terminated (functionSignature ind) (free (newLineAndSameIndent ind))) s) with ⟨v, r, e⟩ | e
  · rw [calls_andThen_ok e, h1 s, calls_bind_free (fun _ _ => rfl)]
    have hr : r <:+ s := suffix_of_ok (fun k => good_opt (good_terminated (cons_functionSignature k ind).good
      (cons_newLineAndSameIndent k ind).good)) ((er_opt (er_terminated (er_functionSignature ind) (er_free _)) s).symm.trans e)
    have := (once_functionDefinition ind (hs.suffix hr)).1
    have := hr.length_le
    omega
  · rw [(calls_andThen_ne e).1, h1 s]; omega

/-! ### Statements and files -/

theorem calls_silent_alt {p q : TP α} (h : Silent p) (s : Str) : calls ((p </> q) s) ≤ calls (q s) := by
  have := h s
  unfold alt
  cases e : p s with
  | mk x k =>
    rw [e] at this
    cases x with
    | err =>
      show calls ((q s).1, k ++ (q s).2) ≤ _
      rw [calls_append, calls_same _ (.err : Res α) k, this, Nat.zero_add]
      exact Nat.le_refl _
    | ok v r => rw [this]; exact Nat.zero_le _
    | panic => rw [this]; exact Nat.zero_le _
    | div => rw [this]; exact Nat.zero_le _

theorem calls_alt_le (p q : TP α) (s : Str) : calls ((p </> q) s) ≤ calls (p s) + calls (q s) := by
  unfold alt
  cases e : p s with
  | mk x k =>
    cases x with
    | err =>
      show calls ((q s).1, k ++ (q s).2) ≤ _
      rw [calls_append]
      exact Nat.le_refl _
    | ok v r => exact Nat.le_add_right _ _
    | panic => exact Nat.le_add_right _ _
    | div => exact Nat.le_add_right _ _

theorem once_portDeclaration {s : Str} (hs : Straight s) : Once 0 s (portDeclaration s) := by
  unfold portDeclaration
  refine once_free (b := 0) (Nat.zero_le _) fun v r1 e => ?_
  have l1 := lt_of_ok (fun k => cons_tag k _ _) e
  have s1 := suffix_of_ok (fun k => (cons_tag k _ _).good) e
  refine ⟨by omega, once_free (b := 0) (Nat.zero_le _) fun v r2 e => ?_⟩
  have l2 := lt_of_ok cons_spaces e
  have s2 := (suffix_of_ok (fun k => (cons_spaces k).good) e).trans s1
  refine ⟨by omega, once_free (b := 0) (Nat.zero_le _) fun v r3 e => ?_⟩
  have l3 := lt_of_ok cons_loName e
  have s3 := (suffix_of_ok (fun k => (cons_loName k).good) e).trans s2
  refine ⟨by omega, once_free (b := 0) (Nat.zero_le _) fun v r4 e => ?_⟩
  have s4 := suffix_of_ok (fun k => good_many0 (good_preceded (cons_spaces k).good (cons_loName k).good)) e
  have l4 := s4.length_le
  exact ⟨by omega, once_body (hs.suffix (s4.trans s3))⟩

/-- `port` is no name, so that a declaration of a port is not read again as a function. -/
theorem calls_function_port {s : Str} (h : 0 < calls (portDeclaration s)) : calls (function 0 s) = 0 := by
  unfold portDeclaration at h
  obtain ⟨v, r1, e1, h⟩ := bind_calls_pos h
  obtain ⟨w, r2, e2, -⟩ := bind_calls_pos h
  have hname : functionNameOrOp s = .err := by
    obtain ⟨rfl, rfl⟩ := tag_eq_ok.1 e1
    obtain ⟨rfl, hw, hsp, -⟩ := spaces_iff.1 e2
    have ht : Next (fun c => ¬ IdentChar c) (w ++ r2) := by
      cases w with
      | nil => exact absurd rfl hw
      | cons c w => rw [List.cons_append, next_cons, hsp c (by simp)]; decide
    unfold functionNameOrOp
    rw [alt_apply, loName_keyword (by decide) ht]
    rfl
  have hf : functionDefinitionF expression 0 s = (.err, []) := by
    unfold functionDefinitionF
    exact bind_err_eq (by unfold free; rw [hname])
  have hsig : functionSignature 0 s = (.err, []) := by
    unfold functionSignature
    exact bind_err_eq (by unfold free; rw [hname])
  have ho : opt (terminated (functionSignature 0) (free (newLineAndSameIndent 0))) s = (.ok none s, []) := by
    have : terminated (functionSignature 0) (free (newLineAndSameIndent 0)) s = (.err, []) := bind_err_eq hsig
    unfold opt alt pmap
    rw [bind_err_eq this]
    rfl
  unfold function functionF
  rw [bind_ok0 ho, bind_err_eq hf]
  rfl

theorem calls_statement {s : Str} (hs : Straight s) : calls (statement s) ≤ s.length + 1 := by
  unfold statement
  refine Nat.le_trans (calls_silent_alt (si_free _) s) ?_
  refine Nat.le_trans (calls_silent_alt (si_free _) s) ?_
  refine Nat.le_trans (calls_silent_alt (si_free _) s) ?_
  refine Nat.le_trans (calls_silent_alt (si_free _) s) ?_
  refine Nat.le_trans (calls_silent_alt si_typeAliasDeclaration s) ?_
  refine Nat.le_trans (calls_silent_alt (si_typeDeclaration 0) s) ?_
  refine Nat.le_trans (calls_silent_alt si_portTypeDeclaration s) ?_
  have h1 := (once_portDeclaration hs).1
  have h2 : calls ((pmap (function 0) Statement.Function </> free infixDeclaration </> free comment) s) ≤ calls (function 0 s) := by
    refine Nat.le_trans (calls_alt_le _ _ s) ?_
    rw [calls_pmap, si_alt (si_free infixDeclaration) (si_free comment) s]
    exact Nat.le_refl _
  by_cases h0 : 0 < calls (portDeclaration s)
  · have := calls_function_port h0
    exact Nat.le_trans (calls_alt_le _ _ s) (by omega)
  · have := calls_function 0 hs
    exact Nat.le_trans (calls_alt_le _ _ s) (by omega)

theorem sq_step {m n : Nat} (h : m < n) : n + 1 + (m + 1) * (m + 1) ≤ (n + 1) * (n + 1) := by
  have : (m + 1) * (m + 1) ≤ n * n := Nat.mul_le_mul h h
  have e : (n + 1) * (n + 1) = n * n + n + n + 1 := by rw [Nat.add_mul, Nat.mul_add]; omega
  omega

theorem st_statement (t : Str) (v : Statement) (r : Str) (e : (statement t).1 = .ok v r) : r <:+ t ∧ r.length < t.length :=
  er_suffix er_statement cons_statement t v r e

theorem calls_more (n : Nat) {s : Str} (hs : Straight s) :
    calls (sepLoop (free multispace0) statement n s) ≤ (s.length + 1) * (s.length + 1) := by
  induction n generalizing s with
  | zero => exact Nat.zero_le _
  | succ n ih =>
    unfold sepLoop free
    cases e : multispace0 s with
    | err => exact Nat.zero_le _
    | panic => exact Nat.zero_le _
    | div => exact Nat.zero_le _
    | ok w u =>
      simp only
      split
      · exact Nat.zero_le _
      · have su := suffix_of_ok good_multispace0 e
        have hu := hs.suffix su
        have h1 := calls_statement hu
        have hl := su.length_le
        have h0 : u.length + 1 ≤ (s.length + 1) * (s.length + 1) :=
          Nat.le_trans (Nat.succ_le_succ hl) (Nat.le_mul_of_pos_right _ (Nat.succ_pos _))
        have st := st_statement u
        cases ep : statement u with
        | mk x l =>
          rw [ep] at h1 st
          cases x with
          | err => exact Nat.le_trans h1 h0
          | panic => exact Nat.le_trans h1 h0
          | div => exact Nat.le_trans h1 h0
          | ok v r =>
            simp only
            split
            · exact Nat.le_trans h1 h0
            · obtain ⟨sr, lr⟩ := st v r rfl
              have k := ih (hu.suffix sr)
              have e1 : calls (andThen (.ok v r, l) fun v => do let vs ← sepLoop (free multispace0) statement n; pure (v :: vs)) =
                  calls ((.ok v r : Res Statement), l) + calls (sepLoop (free multispace0) statement n r) := by
                rw [calls_andThen_ok (x := (.ok v r, l)) rfl, calls_bind_free (fun _ _ => rfl)]
              refine Nat.le_trans (Nat.le_of_eq e1) ?_
              exact Nat.le_trans (Nat.add_le_add h1 k) (sq_step (by omega : r.length < s.length) |> fun h => by omega)

theorem calls_file {s : Str} (hs : Straight s) : calls (file s) ≤ (s.length + 1) * (s.length + 1) := by
  unfold file terminated
  rw [calls_bind_free (fun v r => calls_closing eof v r)]
  unfold statements delimited
  show calls (andThen (free multispace0 s) _) ≤ _
  rcases ok_or (free multispace0 s) with ⟨w, u, e⟩ | e
  · rw [calls_andThen_ok e, calls_free, Nat.zero_add, calls_bind_free (fun v r => calls_closing multispace0 v r)]
    have su : u <:+ s := suffix_of_ok good_multispace0 e
    have hu := hs.suffix su
    have h1 := calls_statement hu
    have hl := su.length_le
    have h0 : u.length + 1 ≤ (s.length + 1) * (s.length + 1) :=
      Nat.le_trans (Nat.succ_le_succ hl) (Nat.le_mul_of_pos_right _ (Nat.succ_pos _))
    unfold sepNonemptyList
    rcases ok_or (statement u) with ⟨v, r, e⟩ | e
    · obtain ⟨sr, lr⟩ := st_statement u v r e
      rw [calls_andThen_ok e, if_neg (by omega), calls_bind_free (fun _ _ => rfl)]
      have k := calls_more (r.length + 1) (hu.suffix sr)
      have := sq_step (by omega : r.length < s.length)
      omega
    · rw [(calls_andThen_ne e).1]; omega
  · rw [(calls_andThen_ne e).1, calls_free]; exact Nat.zero_le _

end Trace
end ElmParser
