import Verif.Props.Effort
import Verif.Props.Chunks

/-! The events of a declaration do not depend on the declarations after it. -/
namespace ElmParser
namespace Trace
namespace Two
open Spec
set_option linter.unusedSectionVars false

@[inherit_doc] local infixr:20 " </> " => alt
variable {α β γ : Type}

/-! ### Single steps -/

theorem free_ok {p : Parser α} {f : α → TP β} {s r : Str} {v : α} (h : p s = .ok v r) : (free p >>= f) s = f v r := by
  show andThen (p s, []) f = _
  rw [h]; rfl
theorem free_err {p : Parser α} {f : α → TP β} {s : Str} (h : p s = .err) : (free p >>= f) s = (.err, []) := by
  show andThen (p s, []) f = _
  rw [h]; rfl
theorem bind_ok {p : TP α} {f : α → TP β} {s r : Str} {v : α} {es : List Event} (h : p s = (.ok v r, es)) :
    (p >>= f) s = ((f v r).1, es ++ (f v r).2) := by
  show andThen (p s) f = _
  rw [h]; rfl
theorem alt_quiet {p q : TP α} {s : Str} (h : p s = (.err, [])) : (p </> q) s = q s := by
  unfold alt; rw [h]; rfl
theorem alt_more {p q : TP α} {s : Str} {es : List Event} (h : p s = (.err, es)) : (p </> q) s = ((q s).1, es ++ (q s).2) := by
  unfold alt; rw [h]
theorem alt_ok {p q : TP α} {s r : Str} {v : α} (h : (p s).1 = .ok v r) : (p </> q) s = p s := by
  unfold alt
  cases hp : p s with
  | mk x es => rw [hp] at h; cases h; rfl
theorem pmap_events {p : TP α} {f : α → β} {s : Str} : (pmap p f s).2 = (p s).2 := by
  show (andThen (p s) _).2 = _
  cases p s with
  | mk x es => cases x <;> simp [andThen] <;> rfl

theorem Sm.both {T : Str → Str → Prop} {x y : Res α × List Event} (h : Sm T x y) {v v' : α} {r r' : Str} (hx : x.1 = .ok v r)
    (hy : y.1 = .ok v' r') : T r r' ∧ ∃ es, x = (.ok v r, es) ∧ y = (.ok v' r', es) := by
  cases h with
  | ok h => cases hx; cases hy; exact ⟨h, _, rfl, rfl⟩
  | err => cases hx
  | undefL h => rcases h with rfl | rfl <;> cases hx
  | undefR h => rcases h with rfl | rfl <;> cases hy
theorem Sm.neither {T : Str → Str → Prop} {x y : Res α × List Event} (h : Sm T x y) (hx : x.1 = .err)
    (hy : y.1 = .err) : ∃ es, x = (.err, es) ∧ y = (.err, es) := by
  cases h with
  | ok h => cases hx
  | err => exact ⟨_, rfl, rfl⟩
  | undefL h => rcases h with rfl | rfl <;> cases hx
  | undefR h => rcases h with rfl | rfl <;> cases hy

theorem shut_drop {a u : Str} (ha : ∀ c ∈ a, Sh.Soft c) (h : Shut (a ++ u)) : Shut u := by
  induction a with
  | nil => exact h
  | cons c a ih => exact ih (fun d hd => ha d (List.mem_cons_of_mem _ hd)) (Sh.soft h (ha c (by simp)))
theorem w_soft {a u : Str} (ha : ∀ c ∈ a, Sh.Soft c) (h : Of.W (a ++ u)) : Of.W u := h.drop (shut_drop ha h.1)
theorem soft_spaces {w : Str} (h : SpacesTxt w) : ∀ c ∈ w, Sh.Soft c := fun c hc => by rw [h.2 c hc]; decide

/-! ### Types -/

theorem ln_gapGT {n ind : Nat} (hi : n ≤ ind + 1) : A (LnT n) (free (gap ind .GT)) (free (gap ind .GT)) := by
  rintro _ ⟨hb⟩ _ _ ⟨u, hu, rfl, rfl⟩
  unfold free
  by_cases hne : u = []
  · subst hne
    rw [List.nil_append, List.nil_append, Of.gap_edge' hb.1 (.inr ⟨rfl, hi⟩), Of.gap_edge' hb.2 (.inr ⟨rfl, hi⟩)]
    exact .err
  · rcases Of.gap_inside hu hne (Of.edge hb.1) (Of.edge hb.2) ind .GT with ⟨e, e'⟩ | ⟨j, _, w, -, -, -, -, hw, -, e, e'⟩
    · rw [e, e']; exact .err
    · rw [e, e']; exact .ok ⟨w, hw, rfl, rfl⟩

theorem ln_type {n ind : Nat} (hi : n ≤ ind + 1) : A (LnT n) (type_ ind) (type_ ind) := fun T hT s s' hs => by
  have h := ln_typeF (tyOk_tyN s.length s'.length) hi T hT s s' hs
  rw [type_, tyRec]
  exact h

theorem tyOk_tyRec : TyOk tyRec tyRec := by
  constructor
  · intro ind T hT s s' hs
    have h := (tyOk_tyN (s.length + 1) (s'.length + 1)).1 ind T hT s s' hs
    rw [tyRec]
    exact h
  · exact fun ind => cl_typeAnnotation ind

theorem ln_typeConstructor {n ind : Nat} (hi : n ≤ ind + 1) : A (LnT n) (typeConstructor ind) (typeConstructor ind) :=
  a_bind (ln_free Of.s_dotted) fun _ => a_bind (a_many0 (ln_typeArg tyOk_tyRec hi)) fun _ => a_pure _

theorem ln_tag {n : Nat} {k : Str} (hk : ∀ c ∈ k, Of.Lone c) : A (LnT n) (free (tag k)) (free (tag k)) := ln_free (Of.s_tag hk)
theorem ln_char {n : Nat} {c : Char} (hc : Of.Lone c) : A (LnT n) (free (char c)) (free (char c)) := ln_free (Of.s_char hc)
theorem ln_spaces {n : Nat} : A (LnT n) (free spaces) (free spaces) := ln_free Of.s_spaces

theorem ln_typeAliasDeclaration : A (LnT 1) typeAliasDeclaration typeAliasDeclaration :=
  a_bind (ln_tag (by decide)) fun _ => a_bind ln_spaces fun _ => a_bind (ln_tag (by decide)) fun _ => a_bind ln_spaces fun _ =>
  a_bind (ln_type (by decide)) fun _ => a_bind ln_spaces fun _ => a_bind (ln_char (by decide)) fun _ =>
  a_bind (ln_free (Of.s_gap (by decide) _)) fun _ => a_bind (ln_typeAnnotation (by decide)) fun _ => a_pure _

theorem ln_portTypeDeclaration : A (LnT 1) portTypeDeclaration portTypeDeclaration :=
  a_bind (ln_tag (by decide)) fun _ => a_bind ln_spaces fun _ => a_bind (ln_free Of.s_loName) fun _ => a_bind ln_spaces fun _ =>
  a_bind (ln_char (by decide)) fun _ => a_bind (ln_gapGT (by decide)) fun _ => a_bind (ln_typeAnnotation (by omega)) fun _ => a_pure _

theorem ln_functionSignature : A (LnT 1) (functionSignature 0) (functionSignature 0) :=
  a_bind (ln_free Of.s_functionNameOrOp) fun _ => a_bind ln_spaces fun _ =>
  a_bind (ln_char (by decide)) fun _ => a_bind (ln_gapGT (by decide)) fun _ => a_bind (ln_typeAnnotation (by omega)) fun _ => a_pure _

theorem of_sm {b b' : Str} {x y : Res α} (h : Of.Sm b b' x y) : Sm (Lined b b') (x, []) (y, []) := by
  cases h with
  | ok hu => exact .ok ⟨_, hu, rfl, rfl⟩
  | err => exact .err
  | undefL h => exact .undefL h
  | undefR h => exact .undefR h

theorem s_constructors {i : Nat} {b : Str} (hb : BelowBar i b) :
    S (Lined b []) (sepNonemptyList (free (ElmParser.delimited (gap i .GTE) (char '|') spaces)) (typeConstructor i))
      (sepNonemptyList (free (ElmParser.delimited (gap i .GTE) (char '|') spaces)) (typeConstructor i)) := by
  have hb' : BelowBar i [] := .inl .nil
  have hx : Of.Bs (i + 1) b [] := ⟨Of.belowBar_below hb, .nil⟩
  refine s_sepNonemptyList fits_lined ?_ (ln_typeConstructor (Nat.le_refl _) _ (.mk hx))
  rintro _ _ ⟨u, hu, rfl, rfl⟩
  by_cases hne : u = []
  · subst hne
    unfold free
    rw [List.nil_append, List.nil_append, Of.barSep_edge hb, Of.barSep_edge hb']
    exact .err
  · unfold free
    rw [delimited_apply, delimited_apply]
    rcases Of.gap_inside hu hne (Of.edge hx.1) (Of.edge hx.2) i .GTE with ⟨e, e'⟩ | ⟨j, _, w, -, -, -, -, hw, -, e, e'⟩
    · rw [e, e']; exact .err
    · rw [e, e', andThen_ok, andThen_ok]
      exact of_sm (Of.sm_andThen (Of.s_char (by decide) w b [] hw hx) fun v w hw => Of.sm_andThen (Of.s_spaces w b [] hw hx) fun _ w hw => .ok hw)

/-! ### Definitions -/

theorem opt_err {p : TP α} {s : Str} {es : List Event} (h : p s = (.err, es)) : opt p s = (.ok none s, es) := by
  have h' : pmap p some s = (.err, es) := by
    show andThen (p s) _ = _
    rw [h]; rfl
  show alt (pmap p some) _ s = _
  rw [alt_more h']
  show (_, es ++ []) = _
  rw [List.append_nil]; rfl
theorem opt_ok {p : TP α} {s r : Str} {v : α} {es : List Event} (h : p s = (.ok v r, es)) : opt p s = (.ok (some v) r, es) := by
  have h' : pmap p some s = (.ok (some v) r, es) := by
    show andThen (p s) _ = _
    rw [h]
    show (_, es ++ []) = _
    rw [List.append_nil]; rfl
  show alt (pmap p some) _ s = _
  rw [alt_ok (v := some v) (r := r) (by rw [h']), h']
theorem terminated_err {p : TP α} {q : TP β} {s : Str} {es : List Event} (h : p s = (.err, es)) : terminated p q s = (.err, es) := by
  show andThen (p s) _ = _
  rw [h]; rfl
theorem terminated_free {p : TP α} {q : Parser β} {s r r' : Str} {v : α} {w : β} {es : List Event} (h : p s = (.ok v r, es))
    (hq : q r = .ok w r') : terminated p (free q) s = (.ok v r', es) := by
  show (p >>= fun v => free q >>= fun _ => pure v) s = _
  rw [bind_ok h, free_ok hq]
  show (_, es ++ []) = _
  rw [List.append_nil]; rfl
theorem bind_pure_events {p : TP α} {f : α → β} {s : Str} : ((p >>= fun v => pure (f v)) s).2 = (p s).2 := by
  show (andThen (p s) _).2 = _
  cases p s with
  | mk x es => cases x <;> simp [andThen] <;> rfl

theorem lined_w {b r r' : Str} (h : Lined b [] r r') : Of.W r' := by
  obtain ⟨u, hu, -, e⟩ := h
  rw [List.append_nil] at e
  exact e ▸ hu

section
variable {g d b : Str} {i : Nat} (hg : GapTxt 0 .GT i g) (hn : NoGap d) (hn' : NoGap (d ++ b)) (hu : Shut d) (he : Spec.Ends d)
  (h0 : 0 < i) (hb : Below 1 b)
include hg hn hn' hu he h0 hb

theorem definition_events {n : Name} {as : List Expr} {h : Str} (hh : HeaderAt 0 none n as h) (hW : Of.W (h ++ (g ++ d))) :
    (functionDefinitionF expression 0 (h ++ (g ++ (d ++ b)))).2 = (functionDefinitionF expression 0 (h ++ (g ++ d))).2 := by
  have hT : LnT 1 (Lined b []) := .mk ⟨hb, .nil⟩
  generalize ho : (none : Option FunctionSignature) = o at hh
  cases hh with
  | signed => cases ho
  | @plain _ _ m cs w hm ha hw =>
    have key : ∀ z, functionNameOrOp (m ++ (cs ++ (w ++ '=' :: (g ++ z)))) = .ok n (cs ++ (w ++ '=' :: (g ++ z))) := fun z =>
      functionNameOrOp_ok hm (fargs_termStop ha (termStop_spaces hw)).ident
    have args : ∀ z, ElmParser.many0 (ElmParser.preceded spaces (ElmParser.termF ElmParser.expression 0)) (cs ++ (w ++ '=' :: (g ++ z))) =
        .ok as (w ++ '=' :: (g ++ z)) := fun z =>
      many0_ok_of_run (src_complete ha _ (termStop_spaces hw)) (fargs_end hw (by decide) (by decide))
    simp only [List.append_assoc, List.cons_append, List.nil_append] at hW ⊢
    have hL : Lined b [] (m ++ (cs ++ (w ++ '=' :: (g ++ (d ++ b))))) (m ++ (cs ++ (w ++ '=' :: (g ++ d)))) := by
      have := lined (b := b) hW.1 hW.2
      simpa only [List.append_assoc, List.cons_append] using this
    have hL2 := ((ln_free (n := 1) Of.s_functionNameOrOp _ hT _ _ hL).both (key (d ++ b)) (key d)).1
    have er := er_many0 (er_preceded (er_free spaces) (er_termF er_expression 0))
    obtain ⟨-, es, e1, e2⟩ := (a_many0 (a_preceded (ln_spaces (n := 1)) (a_termF cl_expression 0 ln_words)) _ hT _ _ hL2).both
      ((er _).trans (args (d ++ b))) ((er _).trans (args d))
    unfold functionDefinitionF
    rw [free_ok (key (d ++ b)), free_ok (key d), bind_ok e1, bind_ok e2,
      free_ok (spaces_ok hw (next_cons.2 (by decide))), free_ok (spaces_ok hw (next_cons.2 (by decide))),
      free_ok (char_cons _ _), free_ok (char_cons _ _), free_ok (hg.gap hn'), free_ok (hg.gap hn)]
    show es ++ _ = es ++ _
    rw [bind_pure_events, bind_pure_events, C84_expression hu he (hb.mono h0)]

theorem function_events {sg : Option FunctionSignature} {n : Name} {as : List Expr} {h : Str} (hh : Header sg n as h)
    (hW : Of.W (h ++ (g ++ d))) : (function 0 (h ++ (g ++ (d ++ b)))).2 = (function 0 (h ++ (g ++ d))).2 := by
  have hT : LnT 1 (Lined b []) := .mk ⟨hb, .nil⟩
  have hL : Lined b [] (h ++ (g ++ (d ++ b))) (h ++ (g ++ d)) := by
    have := lined (b := b) hW.1 hW.2
    simpa only [List.append_assoc, List.cons_append] using this
  have er := er_functionSignature 0
  have hs := ln_functionSignature _ hT _ _ hL
  unfold function functionF
  cases hh with
  | plain hm ha hw =>
    have hh := HeaderAt.plain hm ha hw
    obtain ⟨es, e1, e2⟩ := hs.neither ((er _).trans (header_notSignature hh)) ((er _).trans (header_notSignature hh))
    rw [bind_ok (opt_err (terminated_err e1)), bind_ok (opt_err (terminated_err e2))]
    show es ++ _ = es ++ _
    rw [bind_pure_events, bind_pure_events, definition_events hg hn hn' hu he h0 hb hh hW]
  | @signed _ _ h n' m' w g' i' t c k hm hw hg' ht hk hh =>
    have parts : ∀ z, ElmParser.functionSignature 0 (m' ++ (w ++ ':' :: (g' ++ (c ++ '\n' :: (sp k ++ (h ++ z)))))) =
        .ok ⟨n', t⟩ ('\n' :: (sp k ++ (h ++ z))) ∧
        newLineAndSameIndent 0 ('\n' :: (sp k ++ (h ++ z))) = .ok 0 (h ++ z) := by
      intro z
      have hd := header_head hh z
      have hdash : ¬ ∃ u, h ++ z = '-' :: u := by
        rintro ⟨u, e⟩
        obtain ⟨x, v, e', hx⟩ := hd.head
        rw [e] at e'
        cases e'
        revert hx; decide
      have hspace : Next (· ≠ ' ') (h ++ z) := by
        obtain ⟨x, v, e', hx⟩ := hd.head
        rw [e']
        refine next_cons.2 ?_
        rintro rfl
        revert hx; decide
      have hstop : TyStop i' ('\n' :: (sp k ++ (h ++ z))) := by
        refine ⟨next_cons.2 (by decide), .inr ?_⟩
        refine ⟨[⟨0, none⟩], ⟨k, none⟩, h ++ z, ⟨?_, by simp [gapText], ?_, by simp [Line.ok], .inl ⟨rfl, hd.noGap⟩⟩, ?_, ?_⟩
        · simp [gapText, Line.text, commentText, sp]
        · simp [Line.ok]
        · rintro u e
          exact hdash ⟨_, e⟩
        · right
          refine ⟨by simp, ?_⟩
          have := hg'.le (by decide)
          simp only [column, if_true]
          omega
      constructor
      · unfold ElmParser.functionSignature
        have hty : NoGap (c ++ '\n' :: (sp k ++ (h ++ z))) := ty_head_noGap ht trivial
        rw [ElmParser.bind_apply, functionNameOrOp_ok hm (termStop_spaces hw).ident, andThen_ok, ElmParser.bind_apply,
          spaces_ok hw (next_cons.2 (by decide)), andThen_ok, ElmParser.bind_apply, char_cons, andThen_ok, ElmParser.bind_apply,
          hg'.gap hty, andThen_ok, ElmParser.bind_apply, typeAnnotation_complete ht hstop]
        rfl
      · exact newLineAndSameIndent_iff.2 ⟨rfl, k, rfl, hk, hspace⟩
    simp only [List.append_assoc, List.cons_append, List.nil_append] at hW hs ⊢
    obtain ⟨hL2, es, e1, e2⟩ := hs.both ((er _).trans (parts _).1) ((er _).trans (parts _).1)
    have hW2 : Of.W (h ++ (g ++ d)) := by
      have := lined_w hL2
      refine w_soft (a := '\n' :: sp k) ?_ this
      intro c hc
      rcases List.mem_cons.1 hc with rfl | hc
      · decide
      · rw [List.eq_of_mem_replicate hc]; decide
    rw [bind_ok (opt_ok (terminated_free e1 (parts _).2)), bind_ok (opt_ok (terminated_free e2 (parts _).2))]
    show es ++ _ = es ++ _
    rw [bind_pure_events, bind_pure_events, definition_events hg hn hn' hu he h0 hb hh hW2]

theorem port_events {n : Name} {as : List Name} {w1 cs w2 : Str} (h1 : SpacesTxt w1) (hl : LoName n) (ha : PortArgs as cs)
    (h2 : SpacesTxt w2) : (portDeclaration (c!"port" ++ (w1 ++ (n ++ (cs ++ (w2 ++ '=' :: (g ++ (d ++ b)))))))).2 =
      (portDeclaration (c!"port" ++ (w1 ++ (n ++ (cs ++ (w2 ++ '=' :: (g ++ d))))))).2 := by
  have step : ∀ z, NoGap z → (portDeclaration (c!"port" ++ (w1 ++ (n ++ (cs ++ (w2 ++ '=' :: (g ++ z))))))).2 = (expression i z).2 := by
    intro z hz
    have he : ElmParser.preceded spaces loName (w2 ++ '=' :: (g ++ z)) = .err := by
      rw [preceded_apply, spaces_ok h2 (next_cons.2 (by decide)), andThen_ok, loName_err_head (by decide) (by decide)]
    unfold portDeclaration
    rw [free_ok (tag_ok _ _), free_ok (spaces_ok h1 (loName_notSpace hl _)),
      free_ok (loName_complete hl (tokenEnd_ident (portArgs_tokenEnd ha (spaces_tokenEnd h2)))),
      free_ok (many0_ok_of_run (portArgs_run ha (spaces_tokenEnd h2)) he),
      free_ok (spaces_ok h2 (next_cons.2 (by decide))), free_ok (char_cons _ _), free_ok (hg.gap hz)]
    exact bind_pure_events
  rw [step _ hn', step _ hn, C84_expression hu he (hb.mono h0)]

end

/-! ### Declarations -/

/-- The alternatives of `statement` from the fifth on. -/
abbrev late : TP Statement :=
  typeAliasDeclaration </> typeDeclaration 0 </> portTypeDeclaration </> portDeclaration </> pmap (function 0) .Function
    </> free infixDeclaration </> free comment

theorem statement_late {s : Str} (h1 : portModuleDeclaration s = .err) (h2 : effectModuleDeclaration s = .err)
    (h3 : moduleDeclaration s = .err) (h4 : importStatement s = .err) : statement s = late s := by
  have f : ∀ {p : Parser Statement}, p s = .err → free p s = (.err, []) := fun h => by unfold free; rw [h]
  unfold statement
  rw [alt_quiet (f h1), alt_quiet (f h2), alt_quiet (f h3), alt_quiet (f h4)]

theorem quiet_word {k s : Str} {f : Str → Str → TP β} (h : ∀ v u, tag k s = .ok v u → NoGap u) :
    (free (tag k) >>= fun v => free spaces >>= f v) s = (.err, []) := by
  cases e : tag k s with
  | err => exact free_err e
  | panic => unfold tag at e; split at e <;> cases e
  | div => unfold tag at e; split at e <;> cases e
  | ok v r =>
    rw [free_ok e]
    exact free_err (spaces_err.2 (Next.imp (h _ _ e).1 fun _ h => h.1))

theorem typeAlias_quiet {s : Str} (h : ∀ v u, tag c!"type" s = .ok v u → NoGap u) : typeAliasDeclaration s = (.err, []) := quiet_word h
theorem type_quiet {s : Str} (h : ∀ v u, tag c!"type" s = .ok v u → NoGap u) : typeDeclaration 0 s = (.err, []) := quiet_word h
theorem portType_quiet {s : Str} (h : ∀ v u, tag c!"port" s = .ok v u → NoGap u) : portTypeDeclaration s = (.err, []) := quiet_word h
theorem port_quiet {s : Str} (h : ∀ v u, tag c!"port" s = .ok v u → NoGap u) : portDeclaration s = (.err, []) := quiet_word h

theorem type_late {u : Str} : statement (c!"type" ++ u) = late (c!"type" ++ u) :=
  statement_late (portModule_err (tag_no2 (tag_cons_ne (by decide)))) (effectModule_err (tag_no2 (tag_cons_ne (by decide))))
    (module_err (tag_no2 (tag_cons_ne (by decide)))) (import_err (tag_no2 (tag_cons_ne (by decide))))
theorem port_late {w n t : Str} (hw : SpacesTxt w) (hn : LoName n) (ht : Next (fun c => ¬ IdentChar c) t) :
    statement (c!"port" ++ (w ++ (n ++ t))) = (portTypeDeclaration </> portDeclaration </> pmap (function 0) .Function
      </> free infixDeclaration </> free comment) (c!"port" ++ (w ++ (n ++ t))) := by
  rw [statement_late (port_not_module hw hn ht) (effectModule_err (tag_no2 (tag_cons_ne (by decide))))
    (module_err (tag_no2 (tag_cons_ne (by decide)))) (import_err (tag_no2 (tag_cons_ne (by decide)))), late,
    alt_quiet (s := c!"port" ++ (w ++ (n ++ t))) (typeAlias_quiet (tag_no2 (tag_cons_ne (by decide)))),
    alt_quiet (s := c!"port" ++ (w ++ (n ++ t))) (type_quiet (tag_no2 (tag_cons_ne (by decide))))]

theorem total_of {p : TP α} {q : Parser α} (er : Er p q) (h : ∀ k, Cons k q) (s : Str) : (p s).1 ≠ .div ∧ (p s).1 ≠ .panic := by
  rw [er s]
  rcases err_or_ok h s with e | ⟨v, r, e, -⟩ <;> rw [e] <;> exact ⟨nofun, nofun⟩

theorem type_events {mk : Ty → Statement} {h d b : Str} {i : Nat} {x : Statement} (hh : TypeHeader mk i h) (hn : NoGap d)
    (hn' : NoGap (d ++ b)) (hW : Of.W (h ++ d)) (hB : Below 1 b) (hx : ElmParser.statement (h ++ d) = .ok x [])
    (hx' : ElmParser.statement (h ++ (d ++ b)) = .ok x b) : (statement (h ++ (d ++ b))).2 = (statement (h ++ d)).2 := by
  have hT : LnT 1 (Lined b []) := .mk ⟨hB, .nil⟩
  have hL : Lined b [] (h ++ (d ++ b)) (h ++ d) := by
    have := lined (b := b) hW.1 hW.2
    simpa only [List.append_assoc] using this
  obtain ⟨t, k, -⟩ := (typeHeader_statement hh hn _ _).1 hx
  obtain ⟨t', k', -⟩ := (typeHeader_statement hh hn' _ _).1 hx'
  cases hh with
  | @alias_ t c w1 w2 w3 g i h1 h2 hc h3 hg =>
    have hs := ln_typeAliasDeclaration _ hT _ _ hL
    have key : ∀ {z t r}, NoGap z → ElmParser.typeAnnotation 1 z = .ok t r →
        statement (c!"type" ++ w1 ++ c!"alias" ++ w2 ++ c ++ w3 ++ c!"=" ++ g ++ z) =
          typeAliasDeclaration (c!"type" ++ w1 ++ c!"alias" ++ w2 ++ c ++ w3 ++ c!"=" ++ g ++ z) := by
      intro z t r hz k
      have := alias_header h1 h2 hc h3 hg hz
      rw [k, andThen_ok] at this
      simp only [List.append_assoc]
      simp only [List.singleton_append]
      rw [type_late, late, alt_ok ((er_typeAliasDeclaration _).trans this)]
    rw [key hn' k', key hn k]
    exact hs.events (total_of er_typeAliasDeclaration cons_typeAliasDeclaration _) (total_of er_typeAliasDeclaration cons_typeAliasDeclaration _)
  | @port n w1 w2 g i h1 hl h2 hg =>
    have hs := ln_portTypeDeclaration _ hT _ _ hL
    have key : ∀ {z t r}, NoGap z → ElmParser.typeAnnotation i z = .ok t r →
        statement (c!"port" ++ w1 ++ n ++ w2 ++ c!":" ++ g ++ z) = portTypeDeclaration (c!"port" ++ w1 ++ n ++ w2 ++ c!":" ++ g ++ z) := by
      intro z t r hz k
      have := portType_header h1 hl h2 hg hz
      rw [k, andThen_ok] at this
      simp only [List.append_assoc]
      simp only [List.singleton_append]
      rw [port_late h1 hl (tokenEnd_ident (spaces_tokenEnd h2)), alt_ok ((er_portTypeDeclaration _).trans this)]
    rw [key hn' k', key hn k]
    exact hs.events (total_of er_portTypeDeclaration cons_portTypeDeclaration _) (total_of er_portTypeDeclaration cons_portTypeDeclaration _)

theorem custom_events {t : Ty} {h d b : Str} {i : Nat} {x : Statement} (hh : CustomHeader t i h) (hn : NoGap d)
    (hn' : NoGap (d ++ b)) (hW : Of.W (h ++ d)) (hd : Of.W d) (hB : Below 1 b) (hbar : BelowBar i b)
    (hx : ElmParser.statement (h ++ d) = .ok x [])
    (hx' : ElmParser.statement (h ++ (d ++ b)) = .ok x b) : (statement (h ++ (d ++ b))).2 = (statement (h ++ d)).2 := by
  have hT : LnT 1 (Lined b []) := .mk ⟨hB, .nil⟩
  have hL : Lined b [] (h ++ (d ++ b)) (h ++ d) := by
    have := lined (b := b) hW.1 hW.2
    simpa only [List.append_assoc] using this
  cases hh with
  | mk hw hc h1 h2 =>
    rename_i w c g1 g2 j
    have ha := ln_typeAliasDeclaration _ hT _ _ hL
    simp only [List.append_assoc] at ha hx hx' hL hW ⊢
    simp only [List.singleton_append] at ha hx hx' hL hW ⊢
    have noAlias : ∀ z, (typeAliasDeclaration (c!"type" ++ (w ++ (c ++ (g1 ++ '=' :: (g2 ++ z)))))).1 = .err := fun z =>
      (er_typeAliasDeclaration _).trans (type_not_alias hw hc h1)
    have isType : ∀ {z r}, ElmParser.statement (c!"type" ++ (w ++ (c ++ (g1 ++ '=' :: (g2 ++ z))))) = .ok x r →
        (typeDeclaration 0 (c!"type" ++ (w ++ (c ++ (g1 ++ '=' :: (g2 ++ z)))))).1 = .ok x r := by
      intro z r k
      rw [type_statement (tokenEnd_ident (spaces_tokenEnd hw)), ElmParser.alt_apply, type_not_alias hw hc h1, orElse_err] at k
      exact (er_typeDeclaration 0 _).trans k
    obtain ⟨es, a1, a2⟩ := ha.neither (noAlias _) (noAlias _)
    rw [type_late, type_late, late, alt_more a1, alt_more a2, alt_ok (isType hx'), alt_ok (isType hx)]
    show es ++ _ = es ++ _
    congr 1
    have hty : ∀ z, (type_ 0 (c ++ (g1 ++ '=' :: (g2 ++ z)))).1 = .ok t (g1 ++ '=' :: (g2 ++ z)) := fun z =>
      (er_type 0 _).trans (type_complete hc (tyStop_closer (.inr ⟨_, h1⟩) (by simp)))
    have hL2 : Lined b [] (c ++ (g1 ++ '=' :: (g2 ++ (d ++ b)))) (c ++ (g1 ++ '=' :: (g2 ++ d))) := by
      have hW2 : Of.W (c ++ (g1 ++ '=' :: (g2 ++ d))) := w_soft (a := w) (soft_spaces hw) (w_soft (a := c!"type") (by decide) hW)
      have := lined (b := b) hW2.1 hW2.2
      simpa only [List.append_assoc, List.cons_append] using this
    obtain ⟨-, es, e1, e2⟩ := (ln_type (n := 1) (ind := 0) (by decide) _ hT _ _ hL2).both (hty _) (hty _)
    have hc' := (s_constructors hbar _ _ (lined hd.1 hd.2))
    unfold typeDeclaration
    rw [free_ok (tag_ok _ _), free_ok (tag_ok _ _), free_ok (spaces_ok hw (ty_notSpace hc trivial)),
      free_ok (spaces_ok hw (ty_notSpace hc trivial)), bind_ok e1, bind_ok e2, free_ok (h1.gap (noGap_of_ne (by decide))),
      free_ok (h1.gap (noGap_of_ne (by decide))), free_ok (char_cons _ _), free_ok (char_cons _ _), free_ok (h2.gap hn'), free_ok (h2.gap hn)]
    show es ++ _ = es ++ _
    rw [bind_pure_events, bind_pure_events]
    have er : Er (sepNonemptyList (free (ElmParser.delimited (gap i .GTE) (char '|') spaces)) (typeConstructor i)) (constructors i) :=
      er_sepNonemptyList (er_free _) (er_typeConstructor i)
    rw [hc'.events (total_of er (fun k => cons_constructors k i) _) (total_of er (fun k => cons_constructors k i) _)]

theorem decl_events {mk : Expr → Statement} {h g d b : Str} {i : Nat} {x : Statement} (hh : DeclHeader mk h) (hi : ¬ c!"infix" <+: h)
    (hg : GapTxt 0 .GT i g) (h0 : 0 < i) (hn : NoGap d)
    (hn' : NoGap (d ++ b)) (hW : Of.W (h ++ (g ++ d))) (hd : Of.W d) (hB : Below 1 b)
    (hx : ElmParser.statement (h ++ (g ++ d)) = .ok x [])
    (hx' : ElmParser.statement (h ++ (g ++ (d ++ b))) = .ok x b) : (statement (h ++ (g ++ (d ++ b)))).2 = (statement (h ++ (g ++ d))).2 := by
  obtain ⟨t, k, -⟩ := (declHeader_statement hh hg hn _ _ (.inr hi)).1 hx
  obtain ⟨t', k', -⟩ := (declHeader_statement hh hg hn' _ _ (.inr hi)).1 hx'
  cases hh with
  | @port n as w1 cs w2 h1 hl ha h2 =>
    have hT : LnT 1 (Lined b []) := .mk ⟨hB, .nil⟩
    have hL : Lined b [] (c!"port" ++ w1 ++ n ++ cs ++ w2 ++ c!"=" ++ (g ++ (d ++ b))) (c!"port" ++ w1 ++ n ++ cs ++ w2 ++ c!"=" ++ (g ++ d)) := by
      have := lined (b := b) hW.1 hW.2
      simpa only [List.append_assoc] using this
    have hs := ln_portTypeDeclaration _ hT _ _ hL
    simp only [List.append_assoc] at hs ⊢
    simp only [List.singleton_append] at hs ⊢
    obtain ⟨es, e1, e2⟩ := hs.neither ((er_portTypeDeclaration _).trans (port_not_type h1 hl ha h2))
      ((er_portTypeDeclaration _).trans (port_not_type h1 hl ha h2))
    have isPort : ∀ {z t r}, NoGap z → ElmParser.expression i z = .ok t r →
        (portDeclaration (c!"port" ++ (w1 ++ (n ++ (cs ++ (w2 ++ '=' :: (g ++ z))))))).1 = .ok (.PortDeclaration n as t) r := by
      intro z t r hz k
      have := port_header h1 hl ha h2 hg hz
      rw [k] at this
      exact (er_portDeclaration _).trans this
    have hk := tokenEnd_ident (portArgs_tokenEnd ha (spaces_tokenEnd (r := '=' :: (g ++ d)) h2))
    have hk' := tokenEnd_ident (portArgs_tokenEnd ha (spaces_tokenEnd (r := '=' :: (g ++ (d ++ b))) h2))
    rw [port_late h1 hl hk, port_late h1 hl hk', alt_more e1, alt_more e2, alt_ok (isPort hn' k'), alt_ok (isPort hn k),
      port_events hg hn hn' hd.1 hd.2 h0 hB h1 hl ha h2]
  | @fn sg n as _ hh =>
    have key : ∀ {z e r}, NoGap z → ElmParser.expression i z = .ok e r →
        (statement (h ++ (g ++ z))).2 = (function 0 (h ++ (g ++ z))).2 := by
      intro z e r hz k
      have nd : NotDecl (h ++ (g ++ z)) := header_notDecl hh
      have hq : ∀ k ∈ keywords, ∀ v u, tag k (h ++ (g ++ z)) = .ok v u → NoGap u := by
        obtain ⟨n, m, t, hm, e, ht, -⟩ := header_name hh (g ++ z)
        rw [e]
        cases hm with
        | op ho =>
          intro k hk v u e
          rw [List.append_assoc, List.append_assoc, List.singleton_append] at e
          exfalso
          revert e
          have : ∀ k ∈ keywords, k.head? ≠ none ∧ k.head? ≠ some '(' := by decide
          have hk := this k hk
          cases k with
          | nil => exact absurd rfl hk.1
          | cons y k =>
            intro e
            rw [List.singleton_append, tag_cons_ne (fun h => hk.2 (by rw [h]; rfl))] at e
            cases e
        | lo hl => exact fun k hk v u h => keyword_name hk hl ht h
      have hf := header_function hh hg hz
      rw [k, andThen_ok] at hf
      have hf' : (pmap (function 0) Statement.Function (h ++ (g ++ z))).1 = .ok _ r :=
        (er_pmap (er_function 0) _).trans (by rw [pmap_apply, hf, andThen_ok])
      rw [statement_late nd.portModule nd.effectModule nd.module_ nd.import_, late, alt_quiet (typeAlias_quiet (hq _ (by decide))),
        alt_quiet (type_quiet (hq _ (by decide))), alt_quiet (portType_quiet (hq _ (by decide))), alt_quiet (port_quiet (hq _ (by decide))),
        alt_ok hf', pmap_events]
    rw [key hn' k', key hn k, function_events hg hn hn' hd.1 hd.2 h0 hB hh hW]

theorem chunk_events {c b : Str} (h : Chunk c) (hW : Of.W c) {x : Statement} (hx : ElmParser.statement c = .ok x [])
    (hb : Next (· = '\n') b) (hs : StmtStop b) (hB : Below 1 b) : (statement (c ++ b)).2 = (statement c).2 := by
  have hx' : ElmParser.statement (c ++ b) = .ok x b := (C82_alone h hb hs hB x b).2 ⟨[], hx, rfl⟩
  cases h with
  | @decl mk h g d i hh hi hg h0 hd hn hu he =>
    simp only [List.append_assoc] at hW hx hx' ⊢
    exact decl_events hh hi hg h0 hn (noGap_edge hn hd hb) hW ⟨hu, he⟩ hB hx hx'
  | @type_ mk h d i hh hd hn hu he =>
    simp only [List.append_assoc] at hW hx hx' ⊢
    exact type_events hh hn (noGap_edge hn hd hb) hW hB hx hx'
  | @custom t h d i hh hd hn hu he =>
    simp only [List.append_assoc] at hW hx hx' ⊢
    exact custom_events hh hn (noGap_edge hn hd hb) hW ⟨hu, he⟩ hB (.inr ⟨hB.mono (by omega), stop_noBar hb hs⟩) hx hx'

/-! ### Declarations without events -/

/-- The header of a module, an import or a comment. -/
def Plain : Statement → Prop
  | .ModuleDeclaration .. | .PortModuleDeclaration .. | .EffectModuleDeclaration .. | .ImportStatement .. | .Comment _ => True
  | _ => False

/-- All results of the parser have the property. -/
def Makes (P : α → Prop) (p : Parser α) : Prop := ∀ s v r, p s = .ok v r → P v
theorem makes_pure {P : α → Prop} {v : α} (h : P v) : Makes P (pure v : Parser α) := fun _ _ _ e => by cases e; exact h
theorem makes_bind {P : β → Prop} {p : Parser α} {f : α → Parser β} (h : ∀ v, Makes P (f v)) : Makes P (p >>= f) := fun s v r e => by
  obtain ⟨w, s1, -, e⟩ := bind_eq_ok.1 e
  exact h w s1 v r e
theorem makes_pmap {P : β → Prop} {p : Parser α} {f : α → β} (h : ∀ v, P (f v)) : Makes P (ElmParser.pmap p f) := fun s v r e => by
  obtain ⟨w, -, rfl⟩ := pmap_eq_ok.1 e
  exact h w

theorem function_quiet {s : Str} (h : functionNameOrOp s = .err) : function 0 s = (.err, []) := by
  unfold function functionF
  have h1 : functionSignature 0 s = (.err, []) := free_err h
  have h2 : functionDefinitionF expression 0 s = (.err, []) := free_err h
  rw [bind_ok (opt_err (terminated_err h1))]
  show ((andThen (functionDefinitionF expression 0 s) _).1, [] ++ (andThen (functionDefinitionF expression 0 s) _).2) = _
  rw [h2]; rfl

theorem comment_events {y : Char} {t : Str} (hy : y = '-' ∨ y = '{') : (statement (y :: t)).2 = [] := by
  have ht : ∀ k ∈ [c!"port", c!"type"], tag k (y :: t) = .err := by
    intro k hk
    rcases List.mem_cons.1 hk with rfl | hk
    · exact tag_cons_ne (by rcases hy with rfl | rfl <;> decide)
    · rcases List.mem_singleton.1 hk
      exact tag_cons_ne (by rcases hy with rfl | rfl <;> decide)
  have nd : NotDecl (y :: t) := notDecl_head (by rcases hy with rfl | rfl <;> decide)
  have hf : functionNameOrOp (y :: t) = .err := by
    unfold functionNameOrOp
    rw [ElmParser.alt_apply, loName_err_head (by rcases hy with rfl | rfl <;> decide) (by rcases hy with rfl | rfl <;> decide), orElse_err, delimited_apply]
    exact congrArg (Res.andThen · _) (char_cons_ne _ (by rcases hy with rfl | rfl <;> decide))
  have hp : pmap (function 0) Statement.Function (y :: t) = (.err, []) := by
    show andThen (function 0 (y :: t)) _ = _
    rw [function_quiet hf]; rfl
  rw [statement_late nd.portModule nd.effectModule nd.module_ nd.import_, late, alt_quiet (typeAlias_quiet (tag_no2 (ht _ (by simp)))),
    alt_quiet (type_quiet (tag_no2 (ht _ (by simp)))), alt_quiet (portType_quiet (tag_no2 (ht _ (by simp)))),
    alt_quiet (port_quiet (tag_no2 (ht _ (by simp)))), alt_quiet hp]
  unfold alt free
  cases infixDeclaration (y :: t) <;> rfl

theorem plain_events {s r : Str} {x : Statement} (h : ElmParser.statement s = .ok x r) (hx : Plain x) : (statement s).2 = [] := by
  have h' := h
  unfold ElmParser.statement at h'
  have f : ∀ {p : Parser Statement}, p s = .err → free p s = (.err, []) := fun h => by unfold free; rw [h]
  rcases alt_eq_ok.1 h' with k | ⟨e1, h'⟩
  · unfold statement; rw [alt_ok (p := free portModuleDeclaration) k]; rfl
  rcases alt_eq_ok.1 h' with k | ⟨e2, h'⟩
  · unfold statement; rw [alt_quiet (f e1), alt_ok (p := free effectModuleDeclaration) k]; rfl
  rcases alt_eq_ok.1 h' with k | ⟨e3, h'⟩
  · unfold statement; rw [alt_quiet (f e1), alt_quiet (f e2), alt_ok (p := free moduleDeclaration) k]; rfl
  rcases alt_eq_ok.1 h' with k | ⟨e4, h'⟩
  · unfold statement; rw [alt_quiet (f e1), alt_quiet (f e2), alt_quiet (f e3), alt_ok (p := free importStatement) k]; rfl
  have none : ∀ {p : Parser Statement}, Makes (fun x => ¬ Plain x) p → ¬ p s = .ok x r := fun m k => m _ _ _ k hx
  rcases alt_eq_ok.1 h' with k | ⟨-, h'⟩
  · exact (none (by unfold ElmParser.typeAliasDeclaration; repeat (first | exact makes_pure id | (refine makes_bind fun _ => ?_))) k).elim
  rcases alt_eq_ok.1 h' with k | ⟨-, h'⟩
  · exact (none (by unfold ElmParser.typeDeclaration; repeat (first | exact makes_pure id | (refine makes_bind fun _ => ?_))) k).elim
  rcases alt_eq_ok.1 h' with k | ⟨-, h'⟩
  · exact (none (by unfold ElmParser.portTypeDeclaration; repeat (first | exact makes_pure id | (refine makes_bind fun _ => ?_))) k).elim
  rcases alt_eq_ok.1 h' with k | ⟨-, h'⟩
  · exact (none (by unfold ElmParser.portDeclaration; repeat (first | exact makes_pure id | (refine makes_bind fun _ => ?_))) k).elim
  rcases alt_eq_ok.1 h' with k | ⟨-, h'⟩
  · exact (none (makes_pmap fun _ => id) k).elim
  rcases alt_eq_ok.1 h' with k | ⟨-, h'⟩
  · exact (none (by unfold infixDeclaration; repeat (first | exact makes_pure id | (refine makes_bind fun _ => ?_))) k).elim
  cases s with
  | nil => cases h'
  | cons y t =>
    refine comment_events ?_
    by_cases h1 : y = '-'
    · exact .inl h1
    by_cases h2 : y = '{'
    · exact .inr h2
    rw [comment_err_head h1 h2] at h'
    cases h'

/-! ### Files -/

theorem sepLoop_step {sep : Parser β} {p : TP α} {s s2 s3 : Str} {w : β} {v : α} {es : List Event} (n : Nat) (h1 : sep s = .ok w s2)
    (h2 : s2.length ≠ s.length) (h3 : p s2 = (.ok v s3, es)) (h4 : s3.length ≠ s2.length) :
    sepLoop (free sep) p (n + 1) s = andThen (.ok v s3, es) fun v => (sepLoop (free sep) p n >>= fun vs => pure (v :: vs) : TP (List α)) := by
  simp only [sepLoop, free, h1, if_neg h2, h3, if_neg h4, List.nil_append]

theorem cons_step {q : TP (List α)} {v : α} {vs : List α} {r t : Str} {es es' : List Event} (h : q r = (.ok vs t, es')) :
    andThen (.ok v r, es) (fun v => (q >>= fun vs => pure (v :: vs) : TP (List α))) = (.ok (v :: vs) t, es ++ es') := by
  show (((q >>= fun vs => pure (v :: vs) : TP (List α)) r).1, es ++ ((q >>= fun vs => pure (v :: vs) : TP (List α)) r).2) = _
  rw [bind_ok h]
  show (_, es ++ (es' ++ [])) = _
  rw [List.append_nil]; rfl

theorem headOk_white {c : Str} (h : HeadOk c) (t : Str) : Next (fun c => ¬ White c) (c ++ t) := by
  rcases h with ⟨u, e, -⟩ | h
  · rw [e]; exact next_cons.2 (by decide)
  · obtain ⟨y, v, e, hx⟩ := (h t).head
    rw [e]
    refine next_cons.2 ?_
    rcases hx with hx | rfl | rfl | rfl
    · rintro (rfl | rfl | rfl | rfl) <;> revert hx <;> decide
    all_goals decide

/-- Declarations after each other. -/
theorem rows_events {x : Str → Statement} {ev : Str → List Event} (ps : List (Nat × Str))
    (h : ∀ q ∈ ps, HeadOk q.2 ∧ ∀ cs : List (Nat × Str), (∀ c ∈ cs, HeadOk c.2) → statement (q.2 ++ rows cs) = (.ok (x q.2) (rows cs), ev q.2))
    (n : Nat) (hn : (rows ps).length < n) :
    sepLoop (free multispace0) statement n (rows ps) = (.ok (ps.map (x ·.2)) [], ps.flatMap (ev ·.2)) := by
  induction ps generalizing n with
  | nil =>
    cases n with
    | zero => cases hn
    | succ n => rfl
  | cons q ps ih =>
    obtain ⟨k, c⟩ := q
    cases n with
    | zero => cases hn
    | succ n =>
      have hq := h (k, c) (by simp)
      have hps : ∀ q ∈ ps, HeadOk q.2 := fun q hq => (h q (List.mem_cons_of_mem _ hq)).1
      have hm : multispace0 ('\n' :: (List.replicate k '\n' ++ (c ++ rows ps))) = .ok ('\n' :: List.replicate k '\n') (c ++ rows ps) := by
        refine multispace0_iff.2 ⟨rfl, ?_, headOk_white hq.1 _⟩
        intro y hy
        rcases List.mem_cons.1 hy with rfl | hy
        · decide
        · rw [List.eq_of_mem_replicate hy]; decide
      have hs := hq.2 ps hps
      have hlt := lt_of_ok cons_statement ((er_statement _).symm.trans (congrArg Prod.fst hs))
      have hl : (rows ps).length < n := by
        simp only [rows, List.length_cons, List.length_append] at hn
        omega
      have ih := ih (fun q hq => h q (List.mem_cons_of_mem _ hq)) n hl
      show sepLoop (free multispace0) statement (n + 1) ('\n' :: (List.replicate k '\n' ++ (c ++ rows ps))) = _
      rw [sepLoop_step n hm (by simp only [List.length_cons, List.length_append, List.length_replicate]; omega) hs (Nat.ne_of_lt hlt),
        cons_step ih]
      rfl

/-- A file of declarations each of which, before others, has the events that it has alone. -/
theorem file_events {x : Str → Statement} {ev : Str → List Event} (p : Str) (ps : List (Nat × Str))
    (h : ∀ c ∈ p :: ps.map (·.2), HeadOk c ∧ ∀ cs : List (Nat × Str), (∀ c ∈ cs, HeadOk c.2) → statement (c ++ rows cs) = (.ok (x c) (rows cs), ev c)) :
    (file (p ++ rows ps)).2 = (p :: ps.map (·.2)).flatMap ev := by
  have hps : ∀ q ∈ ps, q.2 ∈ p :: ps.map (·.2) := fun q hq => List.mem_cons_of_mem _ (List.mem_map_of_mem hq)
  have hp := h p (by simp)
  have hs := hp.2 ps fun q hq => (h q.2 (hps q hq)).1
  have hlt := lt_of_ok cons_statement ((er_statement _).symm.trans (congrArg Prod.fst hs))
  have hl := rows_events (x := x) (ev := ev) ps (fun q hq => h q.2 (hps q hq)) _ (Nat.lt_succ_self _)
  have hw : multispace0 (p ++ rows ps) = .ok [] (p ++ rows ps) := multispace0_iff.2 ⟨rfl, by simp, headOk_white hp.1 _⟩
  have e1 : sepNonemptyList (free multispace0) statement (p ++ rows ps) =
      (.ok (x p :: ps.map (x ·.2)) [], ev p ++ ps.flatMap (ev ·.2)) := by
    unfold sepNonemptyList
    rw [hs]
    have := cons_step (v := x p) (es := ev p) hl
    simp only [andThen] at this ⊢
    rw [if_neg (Nat.ne_of_lt hlt)]
    exact this
  have e2 : statements (p ++ rows ps) = (.ok (x p :: ps.map (x ·.2)) [], ev p ++ ps.flatMap (ev ·.2)) := by
    show (free multispace0 >>= fun _ => sepNonemptyList (free multispace0) statement >>= fun v => free multispace0 >>= fun _ => pure v) _ = _
    rw [free_ok hw, bind_ok e1, free_ok (p := multispace0) (s := []) (v := []) (r := []) rfl]
    show (_, _ ++ []) = _
    rw [List.append_nil]; rfl
  have e3 : file (p ++ rows ps) = (.ok (x p :: ps.map (x ·.2)) [], ev p ++ ps.flatMap (ev ·.2)) :=
    terminated_free (q := eof) e2 rfl
  rw [e3, List.flatMap_cons, List.flatMap_map]

end Two
end Trace
end ElmParser
