import Verif.Proofs.TypeLinear

/-! Expressions without `let` contain no types; so many types a whole file costs. -/
namespace ElmParser
namespace Trace
namespace TyLin
open Spec

@[inherit_doc] local infixr:20 " </> " => alt

variable {α β γ δ : Type}

/-! ### Expressions without `let` -/

/-- On texts without `let` the parser reads no types, and it leaves an end of the text. -/
def Mute (p : TP α) : Prop := ∀ s, ¬ c!"let" <:+: s → types (p s) = 0 ∧ ∀ v r, (p s).1 = .ok v r → r <:+ s

theorem noLet_suffix {s t : Str} (h : ¬ c!"let" <:+: s) (ht : t <:+ s) : ¬ c!"let" <:+: t := fun h' => h (h'.trans ht.isInfix)

theorem mu_good {p : Parser α} (h : ∀ k, Good k p) : Mute (free p) := fun _ _ => ⟨rfl, fun _ _ e => suffix_of_ok h e⟩
theorem mu_cons {p : Parser α} (h : ∀ k, Cons k p) : Mute (free p) := mu_good fun k => (h k).good
theorem mu_pure (v : α) : Mute (pure v : TP α) := fun s _ => ⟨rfl, fun _ _ e => by cases e; exact List.suffix_refl s⟩
theorem mu_div : Mute (free fun _ => (.div : Res α)) := fun _ _ => ⟨rfl, fun _ _ e => by cases e⟩
theorem mu_index (v : List α) (i : Nat) : Mute (free (index v i)) := fun s _ => ⟨rfl, fun w r e => by
  have e : index v i s = .ok w r := e
  unfold index at e
  split at e <;> cases e
  exact List.suffix_refl s⟩

theorem mu_step {s : Str} {x : Res α × List Event} (hs : ¬ c!"let" <:+: s) (hx : types x = 0 ∧ ∀ v r, x.1 = .ok v r → r <:+ s)
    {f : α → TP β} (hf : ∀ v, Mute (f v)) :
    types (andThen x f) = 0 ∧ ∀ v r, (andThen x f).1 = .ok v r → r <:+ s := by
  rcases ok_or x with ⟨v, r, e⟩ | e
  · have hr := hx.2 v r e
    have k := hf v r (noLet_suffix hs hr)
    rw [types_andThen_ok (f := f) e, andThen_fst (f := f) e, hx.1, k.1]
    exact ⟨rfl, fun w q eq => (k.2 w q eq).trans hr⟩
  · have k := types_andThen_ne (f := f) e
    exact ⟨k.1.trans hx.1, fun w q eq => absurd eq (k.2 w q)⟩

theorem mu_bind {p : TP α} {f : α → TP β} (h : Mute p) (hf : ∀ v, Mute (f v)) : Mute (p >>= f) := fun s hs =>
  mu_step hs (h s hs) hf
theorem mu_alt {p q : TP α} (h : Mute p) (h' : Mute q) : Mute (p </> q) := fun s hs => by
  refine ⟨types_alt_zero (h s hs).1 (h' s hs).1, ?_⟩
  have h := (h s hs).2
  unfold alt
  cases e : p s with
  | mk x n =>
    rw [e] at h
    cases x with
    | err => exact (h' s hs).2
    | ok v r => exact h
    | panic => exact h
    | div => exact h
theorem mu_pmap {p : TP α} {f : α → β} (h : Mute p) : Mute (pmap p f) := mu_bind h fun _ => mu_pure _
theorem mu_opt {p : TP α} (h : Mute p) : Mute (opt p) := mu_alt (mu_pmap h) (mu_pure _)
theorem mu_preceded {p : TP α} {q : TP β} (h : Mute p) (h' : Mute q) : Mute (preceded p q) := mu_bind h fun _ => h'
theorem mu_terminated {p : TP α} {q : TP β} (h : Mute p) (h' : Mute q) : Mute (terminated p q) :=
  mu_bind h fun _ => mu_bind h' fun _ => mu_pure _
theorem mu_delimited {p : TP α} {q : TP β} {t : TP γ} (h : Mute p) (h' : Mute q) (h'' : Mute t) : Mute (delimited p q t) :=
  mu_bind h fun _ => mu_bind h' fun _ => mu_bind h'' fun _ => mu_pure _
theorem mu_separatedPair {p : TP α} {q : TP β} {t : TP γ} (h : Mute p) (h' : Mute q) (h'' : Mute t) : Mute (separatedPair p q t) :=
  mu_bind h fun _ => mu_bind h' fun _ => mu_bind h'' fun _ => mu_pure _

theorem mu_many0 {p : TP α} (h : Mute p) : Mute (many0 p) := fun s hs => by
  unfold many0
  generalize s.length + 1 = n
  induction n generalizing s with
  | zero => exact ⟨rfl, fun _ _ e => by cases e⟩
  | succ n ih =>
    have hp := h s hs
    unfold many0Loop
    cases e : p s with
    | mk x k =>
      rw [e] at hp
      have hself : types ((.ok ([] : List α) s), k) = 0 ∧ ∀ v r, (Res.ok ([] : List α) s) = .ok v r → r <:+ s :=
        ⟨hp.1, fun v r e => by cases e; exact List.suffix_refl s⟩
      cases x with
      | err => exact hself
      | panic => exact ⟨hp.1, fun _ _ e => by cases e⟩
      | div => exact ⟨hp.1, fun _ _ e => by cases e⟩
      | ok v r =>
        simp only
        split
        · exact hself
        · exact mu_step (x := (.ok v r, k)) hs hp fun v => mu_bind (p := many0Loop p n) ih fun _ => mu_pure _

theorem mu_sepLoop {sep : TP β} {p : TP α} (hsep : Mute sep) (h : Mute p) (n : Nat) : Mute (sepLoop sep p n) := by
  induction n with
  | zero => exact mu_div
  | succ n ih =>
    intro s hs
    have h0 := hsep s hs
    unfold sepLoop
    cases e : sep s with
    | mk x k =>
      rw [e] at h0
      have hself : ∀ l, types ((.ok ([] : List α) s), l) = 0 → types ((.ok ([] : List α) s), l) = 0 ∧
          ∀ v r, (Res.ok ([] : List α) s) = .ok v r → r <:+ s :=
        fun l hl => ⟨hl, fun v r e => by cases e; exact List.suffix_refl s⟩
      cases x with
      | err => exact hself _ h0.1
      | panic => exact ⟨h0.1, fun _ _ e => by cases e⟩
      | div => exact ⟨h0.1, fun _ _ e => by cases e⟩
      | ok w s2 =>
        have hs2 := h0.2 w s2 rfl
        simp only
        split
        · exact hself _ h0.1
        · have hp := h s2 (noLet_suffix hs hs2)
          cases e : p s2 with
          | mk x l =>
            rw [e] at hp
            have hkl : ∀ y : Res (List α), types (y, k ++ l) = 0 := fun y => by
              rw [types_append, types_same y (.ok w s2) k, types_same y x l, h0.1, hp.1]
            cases x with
            | err => exact hself _ (hkl _)
            | panic => exact ⟨hkl _, fun _ _ e => by cases e⟩
            | div => exact ⟨hkl _, fun _ _ e => by cases e⟩
            | ok v s3 =>
              simp only
              split
              · exact hself _ (hkl _)
              · refine mu_step (x := (.ok v s3, k ++ l)) hs ⟨hkl .err, fun v r e => ?_⟩ fun v => mu_bind ih fun _ => mu_pure _
                exact (hp.2 v r e).trans hs2

theorem mu_sepNonemptyList {sep : TP β} {p : TP α} (hs : Mute sep) (h : Mute p) : Mute (sepNonemptyList sep p) := fun s hl => by
  unfold sepNonemptyList
  refine mu_step hl (h s hl) fun v r hr => ?_
  split
  · exact ⟨rfl, fun _ _ e => by cases e⟩
  · exact mu_bind (mu_sepLoop hs h _) (fun _ => mu_pure _) r hr

theorem mu_sepList {sep : TP β} {p : TP α} (hs : Mute sep) (h : Mute p) : Mute (sepList sep p) := fun s hl => by
  have hp := h s hl
  unfold sepList
  cases e : p s with
  | mk x k =>
    rw [e] at hp
    cases x with
    | err => exact ⟨hp.1, fun v r e => by cases e; exact List.suffix_refl s⟩
    | panic => exact ⟨hp.1, fun _ _ e => by cases e⟩
    | div => exact ⟨hp.1, fun _ _ e => by cases e⟩
    | ok v r =>
      simp only
      split
      · exact ⟨hp.1, fun _ _ e => by cases e⟩
      · exact mu_step (x := (.ok v r, k)) hl hp fun v => mu_bind (mu_sepLoop hs h _) fun _ => mu_pure _

theorem mu_mark {p : TP α} (h : Mute p) : Mute (mark .call p) := fun s hs => by
  have := h s hs
  refine ⟨?_, this.2⟩
  have h1 := this.1
  unfold types num mark at *
  rw [List.countP_cons_of_neg (by simp)]
  exact h1

theorem mu_character : Mute character := fun s _ => by
  refine ⟨?_, fun v r e => suffix_of_ok (fun k => (cons_character k).good) ((er_character s).symm.trans e)⟩
  unfold types num
  rcases character_events s with e | ⟨a, b, r, -, e⟩ <;> rw [e] <;> rfl

/-- The parsers without events. -/
macro "mu_tac" : tactic => `(tactic| repeat' first
  | with_reducible exact mu_pure _
  | assumption
  | with_reducible exact mu_index _ _
  | with_reducible exact mu_character
  | with_reducible exact mu_cons fun k => cons_char k _
  | with_reducible exact mu_cons fun k => cons_gap k _ _
  | with_reducible exact mu_cons fun k => cons_tag k _ _
  | with_reducible exact mu_cons cons_fail
  | with_reducible exact mu_cons cons_loName
  | with_reducible exact mu_cons cons_spaces
  | with_reducible exact mu_cons cons_space1
  | with_reducible exact mu_cons cons_multispace
  | with_reducible exact mu_good good_multispace0
  | with_reducible exact mu_good fun k => good_optGap k _ _
  | with_reducible exact mu_cons fun k => cons_commaSep k _
  | with_reducible exact mu_cons fun k => cons_newLineAndSameIndent k _
  | with_reducible exact mu_cons cons_variableP
  | with_reducible exact mu_cons cons_access
  | with_reducible exact mu_cons cons_accessFunction
  | with_reducible exact mu_cons cons_string
  | with_reducible exact mu_cons cons_float
  | with_reducible exact mu_cons cons_integer
  | with_reducible exact mu_cons cons_simplifiedRecord
  | with_reducible exact mu_cons cons_functionNameOrOp
  | with_reducible exact mu_cons ElmParser.Trace.cons_operatorOrAs
  | with_reducible apply mu_alt
  | with_reducible apply mu_pmap
  | with_reducible apply mu_opt
  | with_reducible apply mu_preceded
  | with_reducible apply mu_terminated
  | with_reducible apply mu_delimited
  | with_reducible apply mu_separatedPair
  | with_reducible apply mu_many0
  | with_reducible apply mu_sepNonemptyList
  | with_reducible apply mu_sepList
  | with_reducible refine mu_bind ?_ fun _ => ?_)

section
variable {R : TRec} (h : ∀ ind, Mute (R ind)) (ind : Nat)
include h

theorem mu_list : Mute (list R ind) := by
  have := h ind; unfold list; mu_tac
theorem mu_tuple : Mute (tuple R ind) := by
  have := h ind; unfold tuple; mu_tac
theorem mu_termF : Mute (termF R ind) := by
  have h0 := h ind
  have h1 := mu_list h ind
  have h2 := mu_tuple h ind
  unfold termF parens recordUpdate updateField record recordField; mu_tac
theorem mu_lambda : Mute (lambda R ind) := by
  have h1 := mu_termF h ind
  unfold lambda; mu_tac
  exact h _
theorem mu_applicationOrVar : Mute (applicationOrVar R ind) := by
  have h1 := mu_termF h ind
  unfold applicationOrVar
  refine mu_bind (by mu_tac) fun v => ?_
  split
  · mu_tac
  · split <;> mu_tac
theorem mu_binary : Mute (binary R ind) := by
  have h0 := h ind
  have h1 := mu_applicationOrVar h ind
  unfold binary binaryTail; mu_tac
theorem mu_ifExpression : Mute (ifExpression R ind) := by
  have h0 := h ind
  unfold ifExpression; mu_tac
  all_goals exact h _
theorem mu_caseBranch : Mute (caseBranch R ind) := by
  have h0 := h ind
  unfold caseBranch; mu_tac
  exact h _
theorem mu_caseExpression : Mute (caseExpression R ind) := by
  have h0 := h ind
  have h1 := mu_caseBranch h
  unfold caseExpression casesP; mu_tac
  exact h1 _
omit h in
theorem mu_letExpression : Mute (letExpression R ind) := fun s hs => by
  have : tag c!"let" s = .err := tag_infix hs
  unfold letExpression
  rw [quiet_bind this]
  exact ⟨rfl, fun _ _ e => by cases e⟩
theorem mu_expressionF : Mute (expressionF R ind) := by
  have h1 := mu_binary h ind
  have h2 := mu_letExpression (R := R) ind
  have h3 := mu_caseExpression h ind
  have h4 := mu_ifExpression h ind
  have h5 := mu_lambda h ind
  unfold expressionF; mu_tac
theorem mu_functionDefinitionF : Mute (functionDefinitionF R ind) := by
  have h1 := mu_termF h ind
  unfold functionDefinitionF; mu_tac
  exact h _
end

theorem mu_exprN (n : Nat) (ind : Nat) : Mute (exprN n ind) := by
  induction n generalizing ind with
  | zero => exact mu_div
  | succ n ih => exact mu_mark (mu_expressionF ih ind)

theorem mu_expression (ind : Nat) : Mute (expression ind) := fun s hs => mu_exprN (s.length + 1) ind s hs

theorem mu_portDeclaration : Mute portDeclaration := by
  have h : Mute (free (ElmParser.many0 (ElmParser.preceded spaces loName))) :=
    mu_good fun k => good_many0 (good_preceded (cons_spaces k).good (cons_loName k).good)
  unfold portDeclaration; mu_tac
  exact mu_expression _

/-! ### Declarations -/

theorem types_free_bind {p : Parser α} {f : α → TP β} {s : Str} {n : Nat} (h : ∀ v r, p s = .ok v r → types (f v r) ≤ n) :
    types ((free p >>= f) s) ≤ n := by
  rcases ok_or (p s, ([] : List Event)) with ⟨v, r, e⟩ | e
  · refine Nat.le_trans (Nat.le_of_eq (types_andThen_ok (f := f) e)) ?_
    rw [types_free, Nat.zero_add]
    exact h v r e
  · exact Nat.le_trans (Nat.le_of_eq (types_andThen_ne (f := f) e).1) (Nat.zero_le _)

theorem types_annotation (ind : Nat) {s : Str} (hs : '(' ∉ s) : types (typeAnnotation ind s) ≤ s.length + 1 :=
  (once_annotation ind hs).1

theorem types_functionSignature (ind : Nat) {s : Str} (hs : '(' ∉ s) : types (functionSignature ind s) ≤ s.length := by
  unfold functionSignature
  refine types_free_bind fun v r1 e => ?_
  have l1 := lt_of_ok cons_functionNameOrOp e
  have s1 := suffix_of_ok (fun k => (cons_functionNameOrOp k).good) e
  refine types_free_bind fun v r2 e => ?_
  have s2 := (suffix_of_ok (fun k => (cons_spaces k).good) e)
  refine types_free_bind fun v r3 e => ?_
  have s3 := (suffix_of_ok (fun k => (cons_char k _).good) e).trans s2
  refine types_free_bind fun v r4 e => ?_
  have s4 := (suffix_of_ok (fun k => (cons_gap k ind _).good) e).trans s3
  rw [types_bind_free fun _ _ => rfl]
  have := types_annotation v (noParen_suffix hs (s4.trans s1))
  have := s4.length_le
  omega

theorem types_portTypeDeclaration {s : Str} (hs : '(' ∉ s) : types (portTypeDeclaration s) ≤ s.length := by
  unfold portTypeDeclaration
  refine types_free_bind fun v r1 e => ?_
  have l1 := lt_of_ok (fun k => cons_tag k _ _) e
  have s1 := suffix_of_ok (fun k => (cons_tag k _ _).good) e
  refine types_free_bind fun v r2 e => ?_
  have s2 := (suffix_of_ok (fun k => (cons_spaces k).good) e)
  refine types_free_bind fun v r3 e => ?_
  have s3 := (suffix_of_ok (fun k => (cons_loName k).good) e).trans s2
  refine types_free_bind fun v r4 e => ?_
  have s4 := (suffix_of_ok (fun k => (cons_spaces k).good) e).trans s3
  refine types_free_bind fun v r5 e => ?_
  have s5 := (suffix_of_ok (fun k => (cons_char k _).good) e).trans s4
  refine types_free_bind fun v r6 e => ?_
  have s6 := (suffix_of_ok (fun k => (cons_gap k 0 _).good) e).trans s5
  rw [types_bind_free fun _ _ => rfl]
  have := types_annotation v (noParen_suffix hs (s6.trans s1))
  have := s6.length_le
  omega

/-- Something after a type, which cannot succeed where the type has given up. -/
theorem types_tidy_bind {D : Str → Prop} {p : TP α} {f : α → TP β} {s : Str} (h : Tidy D 0 s (p s))
    (h1 : ∀ v r, (p s).1 = .ok v r → types (f v r) ≤ r.length + 1)
    (h2 : ∀ v r, (p s).1 = .ok v r → D r → types (f v r) = 0) : types ((p >>= f) s) ≤ s.length + 1 := by
  show types (andThen (p s) f) ≤ _
  rcases ok_or (p s) with ⟨v, r, e⟩ | e
  · rw [types_andThen_ok e]
    rcases h.2 v r e with hc | hd
    · have := h1 v r e
      omega
    · rw [h2 v r e hd]; exact h.1
  · rw [(types_andThen_ne e).1]; exact h.1

theorem spaces_gap {r a t : Str} {c : Char} (h : spaces r = .ok a (c :: t)) (hc : c ≠ ' ' ∧ c ≠ '\n' ∧ c ≠ '-') :
    ∃ i, gap 0 .GTE r = .ok i (c :: t) := by
  obtain ⟨rfl, ha, hsp, -⟩ := spaces_iff.1 h
  obtain ⟨ls, n, hg⟩ := spaceNl_gap (w := a) (r := c :: t) ⟨ha, fun x hx => .inl (hsp x hx)⟩
    ⟨next_cons.2 ⟨hc.1, hc.2.1⟩, fun t e => by cases e; exact hc.2.2 rfl⟩
  by_cases hl : ls = []
  · exact ⟨_, gap_iff.2 ⟨ls, _, hg, .inl ⟨hl, rfl⟩⟩⟩
  · exact ⟨_, gap_iff.2 ⟨ls, _, hg, .inr ⟨hl, rfl, Nat.zero_le _⟩⟩⟩

theorem er_type_suffix (ind : Nat) : ∀ t v r, (type_ ind t).1 = .ok v r → r <:+ t ∧ r.length < t.length :=
  er_suffix (er_type ind) fun k => cons_type_ k ind

theorem types_typeAliasDeclaration {s : Str} (hs : '(' ∉ s) : types (typeAliasDeclaration s) ≤ s.length := by
  unfold typeAliasDeclaration
  refine types_free_bind fun v r1 e => ?_
  have l1 := lt_of_ok (fun k => cons_tag k _ _) e
  have s1 := suffix_of_ok (fun k => (cons_tag k _ _).good) e
  refine types_free_bind fun v r2 e => ?_
  have s2 := (suffix_of_ok (fun k => (cons_spaces k).good) e)
  refine types_free_bind fun v r3 e => ?_
  have s3 := (suffix_of_ok (fun k => (cons_tag k _ _).good) e).trans s2
  refine types_free_bind fun v r4 e => ?_
  have s4 := (suffix_of_ok (fun k => (cons_spaces k).good) e).trans s3
  have hp := noParen_suffix hs (s4.trans s1)
  have := s4.length_le
  refine Nat.le_trans (types_tidy_bind (tidy_type 0 hp) (fun v r5 e => ?_) fun v r5 e hd => ?_) (by omega : r4.length + 1 ≤ s.length)
  · have s5 := (er_type_suffix 0 r4 v r5 e).1
    refine types_free_bind fun v r6 e => ?_
    have s6 := (suffix_of_ok (fun k => (cons_spaces k).good) e)
    refine types_free_bind fun v r7 e => ?_
    have s7 := (suffix_of_ok (fun k => (cons_char k _).good) e).trans s6
    refine types_free_bind fun v r8 e => ?_
    have s8 := (suffix_of_ok (fun k => (cons_gap k 1 _).good) e).trans s7
    rw [types_bind_free fun _ _ => rfl]
    have := types_annotation 1 (noParen_suffix hp (s8.trans s5))
    have := s8.length_le
    omega
  · refine (stops fun a t e => stopped fun c u e' => ?_).1
    obtain ⟨-, rfl⟩ := char_eq_ok.1 e'
    obtain ⟨i, hg⟩ := spaces_gap e (by decide)
    obtain ⟨z, h | h⟩ := deadArg_gap hd hg <;> cases h

theorem er_constructor_suffix (ind : Nat) : ∀ t v r, (typeConstructor ind t).1 = .ok v r → r <:+ t ∧ r.length < t.length :=
  er_suffix (er_typeConstructor ind) fun k => cons_typeConstructor k ind

theorem types_typeDeclaration (ind : Nat) {s : Str} (hs : '(' ∉ s) : types (typeDeclaration ind s) ≤ s.length := by
  unfold typeDeclaration
  refine types_free_bind fun v r1 e => ?_
  have l1 := lt_of_ok (fun k => cons_tag k _ _) e
  have s1 := suffix_of_ok (fun k => (cons_tag k _ _).good) e
  refine types_free_bind fun v r2 e => ?_
  have s2 := (suffix_of_ok (fun k => (cons_spaces k).good) e)
  have hp := noParen_suffix hs (s2.trans s1)
  have := s2.length_le
  refine Nat.le_trans (types_tidy_bind (tidy_type ind hp) (fun v r5 e => ?_) fun v r5 e hd => ?_) (by omega : r2.length + 1 ≤ s.length)
  · have s5 := (er_type_suffix ind r2 v r5 e).1
    refine types_free_bind fun i r6 e => ?_
    have s6 := (suffix_of_ok (fun k => (cons_gap k 0 _).good) e)
    refine types_free_bind fun v r7 e => ?_
    have s7 := (suffix_of_ok (fun k => (cons_char k _).good) e).trans s6
    refine types_free_bind fun v r8 e => ?_
    have s8 := (suffix_of_ok (fun k => (cons_gap k i _).good) e).trans s7
    rw [types_bind_free fun _ _ => rfl]
    have hi : Items (ElmParser.delimited (gap i .GTE) (char '|') spaces) (typeConstructor i) DeadArg r8 := {
      sepCons := fun k => delimited_cons (cons_gap k i _).good (cons_char k _) (cons_spaces k).good
      suffix := er_constructor_suffix i
      once := fun t ht => by
        have k := tidy_constructor i (noParen_suffix hp (ht.trans (s8.trans s5)))
        refine ⟨by have := k.1; omega, fun v r e => (k.2 v r e).imp (fun h => by omega) fun h => ⟨?_, h⟩⟩
        refine err_of (fun k => delimited_cons (cons_gap k i _).good (cons_char k _) (cons_spaces k).good) fun c u e => ?_
        obtain ⟨j, t1, t2, z, e1, e2, -⟩ := delimited_eq_ok.1 e
        obtain ⟨-, rfl⟩ := char_eq_ok.1 e2
        obtain ⟨z, h | h⟩ := deadArg_gap h e1 <;> cases h
      err := fun t u x ht e he => .inl (typeConstructor_err he) }
    have := (tidy_nonempty hi).1
    have := s8.length_le
    omega
  · refine (stops fun a t e => stopped fun c u e' => ?_).1
    obtain ⟨-, rfl⟩ := char_eq_ok.1 e'
    obtain ⟨z, h | h⟩ := deadArg_gap hd e <;> cases h

theorem types_function (ind : Nat) {s : Str} (hs : '(' ∉ s) (hl : ¬ c!"let" <:+: s) : types (function ind s) ≤ s.length := by
  unfold function functionF
  have he : Er (opt (terminated (functionSignature ind) (free (newLineAndSameIndent ind)))) _ :=
    er_opt (er_terminated (er_functionSignature ind) (er_free _))
  have h1 : types (opt (terminated (functionSignature ind) (free (newLineAndSameIndent ind))) s) ≤ s.length := by
    have : types (terminated (functionSignature ind) (free (newLineAndSameIndent ind)) s) = types (functionSignature ind s) :=
      types_bind_free fun v q => types_closing _ v q
    have e : types (opt (terminated (functionSignature ind) (free (newLineAndSameIndent ind))) s) =
        types (terminated (functionSignature ind) (free (newLineAndSameIndent ind)) s) := by
      unfold opt alt
      rw [← types_pmap _ some s]
      cases pmap (terminated (functionSignature ind) (free (newLineAndSameIndent ind))) some s with
      | mk x k =>
        cases x with
        | err => simp only; rw [types_append]; rfl
        | ok v r => rfl
        | panic => rfl
        | div => rfl
    rw [e, this]
    exact types_functionSignature ind hs
  show types (andThen (opt (terminated (functionSignature ind) (free (newLineAndSameIndent ind))) s) _) ≤ _
  rcases ok_or (opt (terminated (functionSignature ind) (free (newLineAndSameIndent ind))) s) with ⟨v, r, e⟩ | e
  · have hr : r <:+ s := suffix_of_ok (fun k => good_opt (good_terminated (cons_functionSignature k ind).good
      (cons_newLineAndSameIndent k ind).good)) ((he s).symm.trans e)
    rw [types_andThen_ok e, types_bind_free (fun _ _ => rfl),
      (mu_functionDefinitionF mu_expression ind r (noLet_suffix hl hr)).1]
    exact h1
  · rw [(types_andThen_ne e).1]; exact h1

/-! ### Statements and files -/

theorem types_alt_le (p q : TP α) (s : Str) : types ((p </> q) s) ≤ types (p s) + types (q s) := by
  unfold alt
  cases e : p s with
  | mk x k =>
    cases x with
    | err =>
      show types ((q s).1, k ++ (q s).2) ≤ _
      rw [types_append]
      exact Nat.le_refl _
    | ok v r => exact Nat.le_add_right _ _
    | panic => exact Nat.le_add_right _ _
    | div => exact Nat.le_add_right _ _

/-- `type` and `port` are no names, so that their declarations are not read again as functions. -/
theorem types_function_keyword {k s t u v w : Str} (hs : '(' ∉ s) (hk : k ∈ keywords) (h1 : tag k s = .ok v t) (h2 : spaces t = .ok w u) :
    types (function 0 s) = 0 := by
  have hname : functionNameOrOp s = .err := by
    obtain ⟨rfl, rfl⟩ := tag_eq_ok.1 h1
    obtain ⟨rfl, hw, hsp, -⟩ := spaces_iff.1 h2
    have ht : Next (fun c => ¬ IdentChar c) (w ++ u) := by
      cases w with
      | nil => exact absurd rfl hw
      | cons c w => rw [List.cons_append, next_cons, hsp c (by simp)]; decide
    unfold functionNameOrOp
    rw [alt_apply, loName_keyword hk ht]
    show ElmParser.delimited _ _ _ _ = _
    rw [delimited_apply, noParen hs]
    rfl
  have hf : functionDefinitionF expression 0 s = (.err, []) := by
    unfold functionDefinitionF
    exact bind_err_eq (by unfold free; rw [hname])
  have hsig : functionSignature 0 s = (.err, []) := by
    unfold functionSignature
    exact bind_err_eq (by unfold free; rw [hname])
  have ho : opt (terminated (functionSignature 0) (free (newLineAndSameIndent 0))) s = (.ok none s, []) := by
    have : terminated (functionSignature 0) (free (newLineAndSameIndent 0)) s = (.err, []) := bind_err_eq hsig
    unfold opt alt pmap
    rw [bind_err_eq this]
    rfl
  unfold function functionF
  rw [bind_ok0 ho, bind_err_eq hf]
  rfl

theorem types_statement {s : Str} (hs : '(' ∉ s) (hl : ¬ c!"let" <:+: s) : types (statement s) ≤ 2 * s.length := by
  have hA := types_typeAliasDeclaration hs
  have hB := types_typeDeclaration 0 hs
  have hP := types_portTypeDeclaration hs
  have hF := types_function 0 hs hl
  have hQ := (mu_portDeclaration s hl).1
  have sum : types (statement s) ≤ types (typeAliasDeclaration s) + (types (typeDeclaration 0 s) +
      (types (portTypeDeclaration s) + types (function 0 s))) := by
    have free0 : ∀ (p : Parser Statement) (q : TP Statement), types ((free p </> q) s) ≤ types (q s) := fun p q => by
      refine Nat.le_trans (types_alt_le _ _ s) ?_
      rw [types_free, Nat.zero_add]
      exact Nat.le_refl _
    unfold statement
    refine Nat.le_trans (free0 _ _) ?_
    refine Nat.le_trans (free0 _ _) ?_
    refine Nat.le_trans (free0 _ _) ?_
    refine Nat.le_trans (free0 _ _) ?_
    refine Nat.le_trans (types_alt_le _ _ s) (Nat.add_le_add_left ?_ _)
    refine Nat.le_trans (types_alt_le _ _ s) (Nat.add_le_add_left ?_ _)
    refine Nat.le_trans (types_alt_le _ _ s) (Nat.add_le_add_left ?_ _)
    refine Nat.le_trans (types_alt_le _ _ s) ?_
    rw [hQ, Nat.zero_add]
    refine Nat.le_trans (types_alt_le _ _ s) ?_
    rw [types_pmap]
    have : types ((free infixDeclaration </> free comment) s) = 0 := types_alt_zero rfl rfl
    omega
  have htype : (∃ v t w u, tag c!"type" s = .ok v t ∧ spaces t = .ok w u) →
      types (portTypeDeclaration s) = 0 ∧ types (function 0 s) = 0 := by
    rintro ⟨v, t, w, u, e1, e2⟩
    refine ⟨?_, types_function_keyword hs (by decide) e1 e2⟩
    obtain ⟨rfl, rfl⟩ := tag_eq_ok.1 e1
    unfold portTypeDeclaration
    exact (types_bind_err (tag_cons_ne (by decide))).1
  by_cases hA0 : 0 < types (typeAliasDeclaration s)
  · have := hA0
    unfold typeAliasDeclaration at this
    obtain ⟨v, t, e1, this⟩ := bind_types_pos this
    obtain ⟨w, u, e2, -⟩ := bind_types_pos this
    have := htype ⟨v, t, w, u, e1, e2⟩
    omega
  by_cases hB0 : 0 < types (typeDeclaration 0 s)
  · have := hB0
    unfold typeDeclaration at this
    obtain ⟨v, t, e1, this⟩ := bind_types_pos this
    obtain ⟨w, u, e2, -⟩ := bind_types_pos this
    have := htype ⟨v, t, w, u, e1, e2⟩
    omega
  by_cases hP0 : 0 < types (portTypeDeclaration s)
  · have := hP0
    unfold portTypeDeclaration at this
    obtain ⟨v, t, e1, this⟩ := bind_types_pos this
    obtain ⟨w, u, e2, -⟩ := bind_types_pos this
    have := types_function_keyword hs (by decide) e1 e2
    omega
  omega

theorem sq_types {m n : Nat} (h : m < n) : 2 * n + (m + 1) * (m + 1) ≤ (n + 1) * (n + 1) := by
  have : (m + 1) * (m + 1) ≤ n * n := Nat.mul_le_mul h h
  have e : (n + 1) * (n + 1) = n * n + n + n + 1 := by rw [Nat.add_mul, Nat.mul_add]; omega
  omega

theorem sq_self (n : Nat) : 2 * n ≤ (n + 1) * (n + 1) := by
  have e : (n + 1) * (n + 1) = n * n + n + n + 1 := by rw [Nat.add_mul, Nat.mul_add]; omega
  omega

theorem types_more (n : Nat) {s : Str} (hs : '(' ∉ s) (hl : ¬ c!"let" <:+: s) :
    types (sepLoop (free multispace0) statement n s) ≤ (s.length + 1) * (s.length + 1) := by
  induction n generalizing s with
  | zero => exact Nat.zero_le _
  | succ n ih =>
    unfold sepLoop free
    cases e : multispace0 s with
    | err => exact Nat.zero_le _
    | panic => exact Nat.zero_le _
    | div => exact Nat.zero_le _
    | ok w u =>
      simp only
      split
      · exact Nat.zero_le _
      · have su := suffix_of_ok good_multispace0 e
        have h1 := types_statement (noParen_suffix hs su) (noLet_suffix hl su)
        have hlen := su.length_le
        have h0 := sq_self s.length
        have h1 : types (statement u) ≤ 2 * s.length := by omega
        have st := st_statement u
        cases ep : statement u with
        | mk x l =>
          rw [ep] at h1 st
          cases x with
          | err => exact Nat.le_trans h1 h0
          | panic => exact Nat.le_trans h1 h0
          | div => exact Nat.le_trans h1 h0
          | ok v r =>
            simp only
            split
            · exact Nat.le_trans h1 h0
            · obtain ⟨sr, lr⟩ := st v r rfl
              have k := ih (noParen_suffix hs (sr.trans su)) (noLet_suffix hl (sr.trans su))
              have e1 : types (andThen (.ok v r, l) fun v => do let vs ← sepLoop (free multispace0) statement n; pure (v :: vs)) =
                  types ((.ok v r : Res Statement), l) + types (sepLoop (free multispace0) statement n r) := by
                rw [types_andThen_ok (x := (.ok v r, l)) rfl, types_bind_free (fun _ _ => rfl)]
              refine Nat.le_trans (Nat.le_of_eq e1) ?_
              exact Nat.le_trans (Nat.add_le_add h1 k) (sq_types (by omega : r.length < s.length))

theorem types_file {s : Str} (hs : '(' ∉ s) (hl : ¬ c!"let" <:+: s) : types (file s) ≤ (s.length + 1) * (s.length + 1) := by
  unfold file terminated
  rw [types_bind_free (fun v r => types_closing eof v r)]
  unfold statements delimited
  show types (andThen (free multispace0 s) _) ≤ _
  rcases ok_or (free multispace0 s) with ⟨w, u, e⟩ | e
  · rw [types_andThen_ok e, types_free, Nat.zero_add, types_bind_free (fun v r => types_closing multispace0 v r)]
    have su : u <:+ s := suffix_of_ok good_multispace0 e
    have h1 := types_statement (noParen_suffix hs su) (noLet_suffix hl su)
    have hlen := su.length_le
    have h0 := sq_self s.length
    unfold sepNonemptyList
    rcases ok_or (statement u) with ⟨v, r, e⟩ | e
    · obtain ⟨sr, lr⟩ := st_statement u v r e
      rw [types_andThen_ok e, if_neg (by omega), types_bind_free (fun _ _ => rfl)]
      have k := types_more (r.length + 1) (noParen_suffix hs (sr.trans su)) (noLet_suffix hl (sr.trans su))
      have := sq_types (by omega : r.length < s.length)
      omega
    · rw [(types_andThen_ne e).1]; omega
  · rw [(types_andThen_ne e).1, types_free]; exact Nat.zero_le _

end TyLin
end Trace
end ElmParser
