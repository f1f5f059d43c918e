import Verif.Spec.TypeHeader
import Verif.Proofs.Header
import Verif.Proofs.Offside

/-! Reading declarations that end with a type. -/
namespace ElmParser
open Spec

/-- A name that is a keyword is no function. -/
theorem function_keyword {k u : Str} (hk : k ∈ keywords) (hu : Next (fun c => ¬ IdentChar c) u) (hc : k.head? ≠ some '(') :
    function 0 (k ++ u) = .err := by
  have e0 : functionNameOrOp (k ++ u) = .err := by
    unfold functionNameOrOp
    rw [alt_apply, loName_keyword hk hu, orElse_err, delimited_apply]
    cases k with
    | nil => exact absurd hk (by decide)
    | cons x k => exact congrArg (Res.andThen · _) (char_cons_ne _ fun h => hc (by rw [h]; rfl))
  change functionF expression 0 _ = _
  unfold functionF functionDefinitionF functionSignature
  simp only [bind_apply, opt_apply, terminated_apply, e0, andThen_err, orElse_err, andThen_ok]

theorem type_statement {u : Str} (hu : Next (fun c => ¬ IdentChar c) u) :
    statement (c!"type" ++ u) = (typeAliasDeclaration </> typeDeclaration 0) (c!"type" ++ u) := by
  have e3 : function 0 (c!"type" ++ u) = .err := function_keyword (by decide) hu (by decide)
  have e4 : infixDeclaration (c!"type" ++ u) = .err := infix_err_head (by decide)
  have e5 : comment (c!"type" ++ u) = .err := comment_err_head (by decide) (by decide)
  unfold statement
  simp only [alt_apply, portModule_err (tag_no2 (s := c!"type" ++ u) (tag_cons_ne (by decide))),
    effectModule_err (tag_no2 (s := c!"type" ++ u) (tag_cons_ne (by decide))),
    module_err (tag_no2 (s := c!"type" ++ u) (tag_cons_ne (by decide))), import_err (tag_no2 (s := c!"type" ++ u) (tag_cons_ne (by decide))),
    portType_err (tag_no2 (s := c!"type" ++ u) (tag_cons_ne (by decide))), port_err (tag_no2 (s := c!"type" ++ u) (tag_cons_ne (by decide))),
    pmap_apply, e3, e4, e5, andThen_err, orElse_err]
  cases typeAliasDeclaration (c!"type" ++ u) with
  | err => cases typeDeclaration 0 (c!"type" ++ u) <;> rfl
  | _ => rfl

/-- What is read after the text before a type. -/
theorem after_type {β γ : Type} {p : Parser β} {F : β → γ} {s r : Str} {x : γ} :
    ((p s).andThen fun e r => .ok (F e) r) = .ok x r ↔ ∃ e, p s = .ok e r ∧ x = F e := by
  cases p s with
  | ok e r' =>
    simp only [andThen_ok, Res.ok.injEq]
    constructor
    · rintro ⟨rfl, rfl⟩; exact ⟨e, ⟨rfl, rfl⟩, rfl⟩
    · rintro ⟨e', ⟨rfl, rfl⟩, rfl⟩; exact ⟨rfl, rfl⟩
  | _ => exact ⟨nofun, fun ⟨_, h, _⟩ => nomatch h⟩

theorem alias_header {t : Ty} {c w1 w2 w3 g s : Str} {i : Nat} (h1 : SpacesTxt w1) (h2 : SpacesTxt w2) (hc : TySrc 0 (.ty t) c)
    (h3 : SpacesTxt w3) (hg : GapTxt 1 .GTE i g) (hs : NoGap s) :
    typeAliasDeclaration (c!"type" ++ (w1 ++ (c!"alias" ++ (w2 ++ (c ++ (w3 ++ '=' :: (g ++ s))))))) =
      (typeAnnotation 1 s).andThen fun u r => .ok (.TypeAliasDeclaration t u) r := by
  unfold typeAliasDeclaration
  rw [bind_apply, tag_ok, andThen_ok, bind_apply, spaces_ok (r := c!"alias" ++ (w2 ++ (c ++ (w3 ++ '=' :: (g ++ s))))) h1 (next_cons.2 (by decide)),
    andThen_ok, bind_apply, tag_ok, andThen_ok, bind_apply, spaces_ok h2 (ty_notSpace hc trivial), andThen_ok, bind_apply,
    type_complete hc (tyStop_closer (.inr ⟨_, spacesTxt_gap h3 0 .GTE⟩) (by simp)), andThen_ok, bind_apply,
    spaces_ok h3 (next_cons.2 (by decide)), andThen_ok, bind_apply, char_cons, andThen_ok, bind_apply, hg.gap hs, andThen_ok,
    bind_apply]
  rfl

/-- After `type alias` there is no custom type. -/
theorem alias_not_type {c w1 w2 v : Str} {t : Ty} (h1 : SpacesTxt w1) (h2 : SpacesTxt w2) (hc : TySrc 0 (.ty t) c) :
    typeDeclaration 0 (c!"type" ++ (w1 ++ (c!"alias" ++ (w2 ++ (c ++ v))))) = .err := by
  refine err_of (fun k => cons_typeDeclaration k 0) fun x z e => ?_
  unfold typeDeclaration at e
  simp only [bind_eq_ok] at e
  obtain ⟨_, s1, k1, _, s2, k2, t', s3, k3, i, s4, k4, _, s5, k5, -⟩ := e
  obtain ⟨-, rfl⟩ := ok_inj (tag_ok _ _) k1
  obtain ⟨-, rfl⟩ := ok_inj (spaces_ok h1 (next_cons.2 (by decide))) k2
  have hv : TySrc 0 (.ty (.TypeVariable c!"alias")) c!"alias" := .tyAtom (.var ⟨'a', c!"lias", rfl, by decide, by decide⟩)
  have hn : Next (fun c => ¬ IdentChar c) (w2 ++ (c ++ v)) := tokenEnd_ident (spaces_tokenEnd h2)
  have hty : type_ 0 (c!"alias" ++ (w2 ++ (c ++ v))) = .ok (.TypeVariable c!"alias") (w2 ++ (c ++ v)) := by
    obtain ⟨y, w2', rfl⟩ : ∃ y w', w2 = y :: w' := by
      cases w2 with
      | nil => exact absurd rfl h2.1
      | cons y w => exact ⟨y, w, rfl⟩
    have hy := h2.2 y (by simp)
    subst hy
    rfl
  obtain ⟨-, rfl⟩ := ok_inj hty k3
  obtain ⟨-, rfl⟩ := ok_inj ((spacesTxt_gap h2 0 .GT).gap (ty_head_noGap (r := v) hc trivial)) k4
  obtain ⟨x, y, rfl, hx⟩ := TySrc_head hc trivial
  rw [List.cons_append, char_cons_ne] at k5
  · cases k5
  · rintro rfl; simp [TyHead, Lower, Upper] at hx

theorem portType_header {n : Name} {w1 w2 g s : Str} {i : Nat} (h1 : SpacesTxt w1) (hn : LoName n) (h2 : SpacesTxt w2)
    (hg : GapTxt 0 .GT i g) (hs : NoGap s) :
    portTypeDeclaration (c!"port" ++ (w1 ++ (n ++ (w2 ++ ':' :: (g ++ s))))) =
      (typeAnnotation i s).andThen fun u r => .ok (.PortTypeDeclaration n u) r := by
  unfold portTypeDeclaration
  rw [bind_apply, tag_ok, andThen_ok, bind_apply, spaces_ok h1 (loName_notSpace hn _), andThen_ok, bind_apply,
    loName_complete hn (tokenEnd_ident (spaces_tokenEnd h2)), andThen_ok, bind_apply,
    spaces_ok h2 (next_cons.2 (by decide)), andThen_ok, bind_apply, char_cons, andThen_ok, bind_apply, hg.gap hs, andThen_ok,
    bind_apply]
  rfl

/-- After `port`, a name and a colon there is no port with a body. -/
theorem portType_not_port {n : Name} {w1 w2 v : Str} (h1 : SpacesTxt w1) (hn : LoName n) (h2 : SpacesTxt w2) :
    portDeclaration (c!"port" ++ (w1 ++ (n ++ (w2 ++ ':' :: v)))) = .err := by
  have he : preceded spaces loName (w2 ++ ':' :: v) = .err := by
    rw [preceded_apply, spaces_ok h2 (next_cons.2 (by decide)), andThen_ok, loName_err_head (by decide) (by decide)]
  unfold portDeclaration
  rw [bind_apply, tag_ok, andThen_ok, bind_apply, spaces_ok h1 (loName_notSpace hn _), andThen_ok, bind_apply,
    loName_complete hn (tokenEnd_ident (spaces_tokenEnd h2)), andThen_ok, bind_apply,
    many0_ok_of_run (.nil _) he, andThen_ok, bind_apply,
    spaces_ok h2 (next_cons.2 (by decide)), andThen_ok, bind_apply, char_cons_ne _ (by decide)]
  rfl

theorem typeHeader_statement {mk : Ty → Statement} {i : Nat} {h s : Str} (hh : TypeHeader mk i h) (hs : NoGap s) (x : Statement)
    (r : Str) : statement (h ++ s) = .ok x r ↔ ∃ t, typeAnnotation i s = .ok t r ∧ x = mk t := by
  cases hh with
  | @alias_ t c w1 w2 w3 g i h1 h2 hc h3 hg =>
    simp only [List.append_assoc, List.cons_append, List.nil_append]
    have e1 := type_statement (u := w1 ++ (c!"alias" ++ (w2 ++ (c ++ (w3 ++ '=' :: (g ++ s)))))) (tokenEnd_ident (spaces_tokenEnd h1))
    have e2 := alias_header h1 h2 hc h3 hg hs
    have e3 := alias_not_type (v := w3 ++ '=' :: (g ++ s)) h1 h2 hc
    rw [alt_apply, e2, e3] at e1
    simp only [List.cons_append, List.nil_append] at e1
    rw [e1, ← after_type (F := fun u => Statement.TypeAliasDeclaration t u)]
    cases typeAnnotation 1 s <;> simp [Res.andThen, Res.orElse]
  | @port n w1 w2 g i h1 hn h2 hg =>
    simp only [List.append_assoc, List.cons_append, List.nil_append]
    have e1 := port_not_module (t := w2 ++ ':' :: (g ++ s)) h1 hn (tokenEnd_ident (spaces_tokenEnd h2))
    have e2 := portType_header h1 hn h2 hg hs
    have e3 := portType_not_port (v := g ++ s) h1 hn h2
    generalize hu : w1 ++ (n ++ (w2 ++ ':' :: (g ++ s))) = u at *
    have hu' : Next (fun c => ¬ IdentChar c) u := hu ▸ tokenEnd_ident (spaces_tokenEnd h1)
    have e6 : function 0 (c!"port" ++ u) = .err := function_keyword (by decide) hu' (by decide)
    have e4 : infixDeclaration (c!"port" ++ u) = .err := infix_err_head (by decide)
    have e5 : comment (c!"port" ++ u) = .err := comment_err_head (by decide) (by decide)
    have e : statement (c!"port" ++ u) = portTypeDeclaration (c!"port" ++ u) := by
      unfold statement
      simp only [alt_apply, e1, effectModule_err (tag_no2 (s := c!"port" ++ u) (tag_cons_ne (by decide))),
        module_err (tag_no2 (s := c!"port" ++ u) (tag_cons_ne (by decide))), import_err (tag_no2 (s := c!"port" ++ u) (tag_cons_ne (by decide))),
        typeAlias_err (tag_no2 (s := c!"port" ++ u) (tag_cons_ne (by decide))), typeDecl_err (tag_no2 (s := c!"port" ++ u) (tag_cons_ne (by decide))),
        pmap_apply, e3, e4, e5, e6, andThen_err, orElse_err]
      cases portTypeDeclaration (c!"port" ++ u) <;> rfl
    rw [e2] at e
    simp only [List.cons_append, List.nil_append] at e
    rw [e, ← after_type (F := fun u => Statement.PortTypeDeclaration n u)]

/-- The constructors of a custom type. -/
abbrev constructors (i : Nat) : Parser (List Ty) := sepNonemptyList (delimited (gap i .GTE) (char '|') spaces) (typeConstructor i)

theorem cons_constructors (k i : Nat) : Cons k (constructors i) :=
  cons_sepNonemptyList
    (good_bind (cons_gap k i _).good fun _ => good_bind (cons_char k _).good fun _ =>
      good_bind (cons_spaces k).good fun _ => good_pure _ _)
    (cons_typeConstructor k i).good

theorem customHeader_statement {t : Ty} {i : Nat} {h s : Str} (hh : CustomHeader t i h) (hs : NoGap s) (x : Statement)
    (r : Str) : statement (h ++ s) = .ok x r ↔ ∃ us, constructors i s = .ok us r ∧ x = .TypeDeclaration t us := by
  cases hh with
  | mk hw hc h1 h2 =>
    rename_i w c g1 g2 j
    simp only [List.append_assoc, List.cons_append, List.nil_append]
    have e1 := type_statement (u := w ++ (c ++ (g1 ++ '=' :: (g2 ++ s)))) (tokenEnd_ident (spaces_tokenEnd hw))
    have e2 := type_not_alias (t := g2 ++ s) hw hc h1
    have e3 : typeDeclaration 0 (c!"type" ++ (w ++ (c ++ (g1 ++ '=' :: (g2 ++ s))))) =
        (constructors i s).andThen fun us r => .ok (.TypeDeclaration t us) r := by
      unfold typeDeclaration
      rw [bind_apply, tag_ok, andThen_ok, bind_apply, spaces_ok hw (ty_notSpace hc trivial), andThen_ok, bind_apply,
        type_complete hc (tyStop_closer (.inr ⟨_, h1⟩) (by simp)), andThen_ok, bind_apply, h1.gap (noGap_of_ne (by decide)), andThen_ok,
        bind_apply, char_cons, andThen_ok, bind_apply, h2.gap hs, andThen_ok, bind_apply]
      rfl
    rw [alt_apply, e2, e3, orElse_err] at e1
    simp only [List.cons_append, List.nil_append] at e1
    rw [e1, ← after_type (F := fun us => Statement.TypeDeclaration t us)]

theorem Of.s_typeConstructor {n ind : Nat} (hi : n ≤ ind + 1) : Of.S n (typeConstructor ind) (typeConstructor ind) :=
  Of.s_typeConstructorF Sh.tyOk_tyRec hi

theorem Of.barSep_edge {i : Nat} {b : Str} (h : BelowBar i b) : delimited (gap i .GTE) (char '|') spaces b = .err := by
  rw [delimited_apply]
  rcases h with h | ⟨-, h⟩
  · rw [Of.gap_edge h (Nat.le_refl i)]; rfl
  · rcases err_or_ok (fun k => cons_gap k i .GTE) b with e | ⟨j, r, e, -⟩
    · rw [e]; rfl
    · obtain ⟨ls, last, hg, -⟩ := gap_iff.1 e
      rw [e, andThen_ok]
      cases r with
      | nil => rfl
      | cons c r =>
        rw [char_cons_ne]
        · rfl
        · rintro rfl; exact h _ _ _ hg

theorem Of.belowBar_below {i : Nat} {b : Str} (h : BelowBar i b) : Below (i + 1) b :=
  h.elim (fun h => h.mono (Nat.le_succ i)) And.left

theorem Of.sm_constructors {i : Nat} {u b b' : Str} (hu : Of.W u) (hb : BelowBar i b) (hb' : BelowBar i b') :
    Of.Sm b b' (constructors i (u ++ b)) (constructors i (u ++ b')) := by
  have hx : Of.Bs (i + 1) b b' := ⟨Of.belowBar_below hb, Of.belowBar_below hb'⟩
  refine Of.sm_sepNonemptyList (fun u hu => ?_) (fun u hu => Of.s_typeConstructor (Nat.le_refl _) u b b' hu hx) hu
  by_cases hne : u = []
  · subst hne
    rw [List.nil_append, List.nil_append, Of.barSep_edge hb, Of.barSep_edge hb']
    exact .err
  · rw [delimited_apply, delimited_apply]
    rcases Of.gap_inside hu hne (Of.edge hx.1) (Of.edge hx.2) i .GTE with ⟨e, e'⟩ | ⟨j, _, w, -, -, -, -, hw, -, e, e'⟩
    · rw [e, e']; exact .err
    · rw [e, e', andThen_ok, andThen_ok]
      exact Of.sm_andThen (Of.s_char (by decide) w b b' hw hx) fun v w hw => Of.sm_andThen (Of.s_spaces w b b' hw hx) fun _ w hw => .ok hw

/-- A name before a colon begins no infix declaration. -/
theorem signature_not_infix {n m w v : Str} (hn : FnName n m) (hw : SpacesTxt w) : infixDeclaration (m ++ (w ++ ':' :: v)) = .err := by
  cases hn with
  | op => exact infix_err_head (by decide)
  | lo hl =>
    have hm : ' ' ∉ n := by
      intro h
      rcases hl with rfl | ⟨⟨c, t, rfl, h1, h2⟩, -⟩
      · revert h; decide
      · rcases List.mem_cons.1 h with rfl | h
        · revert h1; decide
        · have := h2 _ h
          revert this; decide
    refine err_of cons_infixDeclaration fun x z e => ?_
    unfold infixDeclaration at e
    simp only [bind_eq_ok] at e
    obtain ⟨a, s1, k1, w1, s2, k2, d, s3, k3, -⟩ := e
    obtain ⟨e, -⟩ := assoc_iff.1 k1
    have ha : ' ' ∉ assocText a := by cases a <;> decide
    have hs1 : ∀ u, s1 ≠ ' ' :: u ∨ s1 = w ++ ':' :: v := by
      intro u
      rcases List.append_eq_append_iff.1 e with ⟨z, e1, e2⟩ | ⟨z, e1, e2⟩
      · cases z with
        | nil => exact .inr (by simpa using e2.symm)
        | cons y z =>
          cases w with
          | nil => exact absurd rfl hw.1
          | cons y' w =>
            have := hw.2 y' (by simp)
            subst this
            have e3 := (List.cons.inj e2).1
            subst e3
            exact absurd (by rw [e1]; simp) ha
      · cases z with
        | nil => exact .inr (by simpa using e2)
        | cons y z =>
          refine .inl ?_
          rintro rfl
          have e3 := (List.cons.inj e2).1
          subst e3
          exact hm (by rw [e1]; simp)
    obtain ⟨rfl, hne, hw1, hx⟩ := spaces_iff.1 k2
    cases w1 with
    | nil => exact hne rfl
    | cons y w1 =>
      have := hw1 y (by simp)
      subst this
      rcases hs1 (w1 ++ s2) with h | h
      · exact h rfl
      · have k := spaces_ok (r := ':' :: v) hw (next_cons.2 (by decide))
        rw [← h, k2] at k
        cases k
        obtain ⟨_, k4, -⟩ := mapRes_eq_ok.1 k3
        rw [digit_err (next_cons.2 (by decide))] at k4
        cases k4

/-- After a signature up to its type a declaration is read exactly if the type is, and a definition on the next line. -/
theorem signatureHeader_statement {n : Name} {i : Nat} {h s : Str} (hh : SignatureHeader n i h) (hs : NoGap s) (x : Statement) (r : Str) :
    statement (h ++ s) = .ok x r ↔ ∃ t k u d, typeAnnotation i s = .ok t ('\n' :: (sp k ++ u)) ∧ k % 4294967296 = 0 ∧ Next (· ≠ ' ') u ∧
      functionDefinitionF expression 0 u = .ok d r ∧ x = .Function (.mk (some ⟨n, t⟩) d) := by
  cases hh with
  | mk hn hw hg =>
    rename_i m w g
    simp only [List.append_assoc, List.cons_append, List.nil_append]
    have hti : Next (fun c => ¬ IdentChar c) (w ++ ':' :: (g ++ s)) := Spec.TermStop.ident (termStop_spaces hw)
    have hnd : NotDecl (m ++ (w ++ ':' :: (g ++ s))) := by
      cases hn with
      | op ho => exact notDecl_head (by decide)
      | lo hl =>
        have key : ∀ k ∈ keywords, ∀ v u, tag k (n ++ (w ++ ':' :: (g ++ s))) = .ok v u → NoGap u :=
          fun k hk v u h => keyword_name hk hl hti h
        refine ⟨portModule_err fun v u k1 j x k2 => (noGap_gap (key _ (by decide) _ _ k1) k2).elim,
          effect_not_module hl hti ?_, module_err (key _ (by decide)), import_err (key _ (by decide)),
          typeAlias_err (key _ (by decide)), typeDecl_err (key _ (by decide)), portType_err (key _ (by decide)),
          port_err (key _ (by decide))⟩
        intro j u k1 v x k2
        have := (spacesTxt_gap hw 0 .GT).gap (r := ':' :: (g ++ s)) (noGap_of_ne (by decide))
        obtain ⟨-, rfl⟩ := ok_inj this k1
        rw [tag_cons_ne (by decide)] at k2
        cases k2
    have hsig : functionSignature 0 (m ++ (w ++ ':' :: (g ++ s))) = (typeAnnotation i s).andThen fun t r => .ok ⟨n, t⟩ r := by
      unfold functionSignature
      rw [bind_apply, functionNameOrOp_ok hn hti, andThen_ok, bind_apply, spaces_ok hw (next_cons.2 (by decide)), andThen_ok,
        bind_apply, char_cons, andThen_ok, bind_apply, hg.gap hs, andThen_ok, bind_apply]
      rfl
    have hdef : functionDefinitionF expression 0 (m ++ (w ++ ':' :: (g ++ s))) = .err := by
      unfold functionDefinitionF
      rw [bind_apply, functionNameOrOp_ok hn hti, andThen_ok, bind_apply, many0_ok_of_run (.nil _) (fargs_end hw (by decide) (by decide)),
        andThen_ok, bind_apply, spaces_ok hw (next_cons.2 (by decide)), andThen_ok, bind_apply, char_cons_ne _ (by decide)]
      rfl
    have hfn : ∀ f, function 0 (m ++ (w ++ ':' :: (g ++ s))) = .ok f r ↔ ∃ t k u d, typeAnnotation i s = .ok t ('\n' :: (sp k ++ u)) ∧
        k % 4294967296 = 0 ∧ Next (· ≠ ' ') u ∧ functionDefinitionF expression 0 u = .ok d r ∧ f = .mk (some ⟨n, t⟩) d := by
      intro f
      change functionF expression 0 _ = _ ↔ _
      unfold functionF
      simp only [bind_eq_ok, pure_eq_ok]
      constructor
      · rintro ⟨o, s1, k1, d, s2, k2, rfl, rfl⟩
        rcases opt_eq_ok.1 k1 with ⟨sg, k3, rfl⟩ | ⟨-, rfl, rfl⟩
        · obtain ⟨s3, i', k4, k5⟩ := terminated_eq_ok.1 k3
          obtain ⟨h1, k, rfl, hk, h2⟩ := newLineAndSameIndent_iff.1 k5
          rw [hsig] at k4
          obtain ⟨t, h3, rfl⟩ := after_type.1 k4
          exact ⟨t, k, s1, d, h3, hk, h2, k2, rfl⟩
        · rw [hdef] at k2; cases k2
      · rintro ⟨t, k, u, d, h1, h2, h3, h4, rfl⟩
        refine ⟨some ⟨n, t⟩, u, opt_eq_ok.2 (.inl ⟨_, terminated_eq_ok.2 ⟨_, 0, ?_, newLineAndSameIndent_iff.2 ⟨rfl, k, rfl, h2, h3⟩⟩, rfl⟩), d, r, h4, rfl, rfl⟩
        rw [hsig]
        exact after_type.2 ⟨t, h1, rfl⟩
    constructor
    · intro e
      rcases err_or_ok (fun k => cons_function k 0) (m ++ (w ++ ':' :: (g ++ s))) with h | ⟨f, r', h, -⟩
      · exfalso
        rw [hnd.other h] at e
        rcases alt_eq_ok.1 e with k | ⟨-, k⟩
        · rw [signature_not_infix hn hw] at k; cases k
        · obtain ⟨y, z, rfl, hy⟩ := fnName_head hn
          rw [List.cons_append, comment_err_head] at k
          · cases k
          · rintro rfl; revert hy; decide
          · rintro rfl; revert hy; decide
      · have := hnd.fn h
        rw [e] at this
        cases this
        obtain ⟨t, k, u, d, h1, h2, h3, h4, rfl⟩ := (hfn f).1 h
        exact ⟨t, k, u, d, h1, h2, h3, h4, rfl⟩
    · rintro ⟨t, k, u, d, h1, h2, h3, h4, rfl⟩
      exact hnd.fn ((hfn _).2 ⟨t, k, u, d, h1, h2, h3, h4, rfl⟩)

end ElmParser
