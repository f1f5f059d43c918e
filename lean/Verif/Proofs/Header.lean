import Verif.Spec.Header
import Verif.Proofs.Offside
import Verif.Proofs.StmtOrder
import Verif.Proofs.StmtChoice

/-! Definitions whose body starts on a new line. -/
namespace ElmParser
open Spec

variable {s r : Str}

theorem header_head {sg : Option FunctionSignature} {n : Name} {as : List Expr} {h : Str} {ind : Nat} (hh : HeaderAt ind sg n as h) (t : Str) :
    StmtHead (h ++ t) := by
  cases hh with
  | plain hn ha hw =>
    simp only [List.append_assoc]
    exact stmtHead_fnName hn (fargs_termStop ha (termStop_spaces hw)).ident
  | signed hn hw =>
    simp only [List.append_assoc]
    exact stmtHead_fnName hn (termStop_spaces hw).ident

theorem header_definition {n : Name} {as : List Expr} {h g : Str} {ind i : Nat} (hh : HeaderAt ind none n as h) (hg : GapTxt ind .GT i g)
    (hs : NoGap s) : functionDefinitionF expression ind (h ++ (g ++ s)) =
      (expression i s).andThen fun e r => .ok (.mk n as e) r := by
  generalize ho : (none : Option FunctionSignature) = o at hh
  cases hh with
  | signed => cases ho
  | @plain _ _ m cs w hn ha hw =>
    unfold functionDefinitionF
    have ht := termStop_spaces (r := '=' :: (g ++ s)) hw
    have h1 := src_complete ha _ ht
    simp only [List.append_assoc, List.cons_append, List.nil_append]
    rw [bind_apply, functionNameOrOp_ok hn (fargs_termStop ha ht).ident, andThen_ok, bind_apply,
      many0_ok_of_run h1 (fargs_end hw (by decide) (by decide)), andThen_ok, bind_apply,
      spaces_ok hw (next_cons.2 (by decide)), andThen_ok, bind_apply, char_cons, andThen_ok, bind_apply,
      hg.gap hs, andThen_ok, bind_apply]
    rfl

theorem header_notSignature {n : Name} {as : List Expr} {h : Str} {ind : Nat} (hh : HeaderAt ind none n as h) : functionSignature ind (h ++ s) = .err := by
  generalize ho : (none : Option FunctionSignature) = o at hh
  cases hh with
  | signed => cases ho
  | @plain _ _ m cs w hn ha hw =>
    unfold functionSignature
    simp only [List.append_assoc, List.cons_append, List.nil_append]
    rw [bind_apply, functionNameOrOp_ok hn (fargs_termStop ha (termStop_spaces hw)).ident, andThen_ok, bind_apply]
    cases ha with
    | fargs0 =>
      rw [List.nil_append, spaces_ok hw (next_cons.2 (by decide)), andThen_ok, bind_apply, char_cons_ne _ (by decide)]
      rfl
    | @fargs _ _ a as' w' c' cs' hw' hc hcs =>
      obtain ⟨x, u, rfl, hx⟩ := term_head hc _ (.inl rfl)
      simp only [List.append_assoc, List.cons_append]
      rw [spaces_ok hw' (next_cons.2 ?_), andThen_ok, bind_apply, char_cons_ne]
      · rfl
      · rintro rfl; revert hx; decide
      · rintro rfl; revert hx; decide

theorem header_function {sg : Option FunctionSignature} {n : Name} {as : List Expr} {h g : Str} {ind i : Nat} (hh : HeaderAt ind sg n as h)
    (hg : GapTxt ind .GT i g) (hs : NoGap s) : function ind (h ++ (g ++ s)) =
      (expression i s).andThen fun e r => .ok (.mk sg (.mk n as e)) r := by
  change functionF expression ind _ = _
  unfold functionF
  cases hh with
  | plain hn ha hw =>
    have hh := HeaderAt.plain hn ha hw
    rw [bind_apply, opt_apply, terminated_apply, header_notSignature hh]
    simp only [andThen_err, orElse_err, andThen_ok, bind_apply, header_definition hh hg hs]
    cases expression i s <;> rfl
  | @signed _ _ h n' m' w g' i' t c k hn hw hg' ht hk hh =>
    have hd := header_head hh (g ++ s)
    have hdash : ¬ ∃ u, h ++ (g ++ s) = '-' :: u := by
      rintro ⟨u, e⟩
      obtain ⟨x, v, e', hx⟩ := hd.head
      rw [e] at e'
      cases e'
      revert hx; decide
    have hspace : Next (· ≠ ' ') (h ++ (g ++ s)) := by
      obtain ⟨x, v, e', hx⟩ := hd.head
      rw [e']
      refine next_cons.2 ?_
      rintro rfl
      revert hx; decide
    have hstop : TyStop i' ('\n' :: (sp k ++ (h ++ (g ++ s)))) := by
      refine ⟨next_cons.2 (by decide), .inr ?_⟩
      refine ⟨[⟨0, none⟩], ⟨k, none⟩, h ++ (g ++ s), ⟨?_, by simp [gapText], ?_, by simp [Line.ok], .inl ⟨rfl, hd.noGap⟩⟩, ?_, ?_⟩
      · simp [gapText, Line.text, commentText, sp]
      · simp [Line.ok]
      · rintro u e
        exact hdash ⟨_, e⟩
      · right
        refine ⟨by simp, ?_⟩
        have := hg'.le (by decide)
        simp only [column, if_true]
        omega
    have e1 : functionSignature ind (m' ++ (w ++ ':' :: (g' ++ (c ++ '\n' :: (sp k ++ (h ++ (g ++ s))))))) =
        .ok ⟨n', t⟩ ('\n' :: (sp k ++ (h ++ (g ++ s)))) := by
      unfold functionSignature
      have hty : NoGap (c ++ '\n' :: (sp k ++ (h ++ (g ++ s)))) := ty_head_noGap ht trivial
      rw [bind_apply, functionNameOrOp_ok hn (termStop_spaces hw).ident, andThen_ok, bind_apply,
        spaces_ok hw (next_cons.2 (by decide)), andThen_ok, bind_apply, char_cons, andThen_ok, bind_apply,
        hg'.gap hty, andThen_ok, bind_apply, typeAnnotation_complete ht hstop]
      rfl
    have e2 : newLineAndSameIndent ind ('\n' :: (sp k ++ (h ++ (g ++ s)))) = .ok ind (h ++ (g ++ s)) :=
      newLineAndSameIndent_iff.2 ⟨rfl, k, rfl, hk, hspace⟩
    simp only [List.append_assoc, List.cons_append, List.nil_append]
    rw [bind_apply, opt_apply, terminated_apply, e1, andThen_ok, e2, andThen_ok]
    simp only [andThen_ok, orElse_ok, bind_apply, header_definition hh hg hs]
    cases expression i s <;> rfl

theorem header_name {sg : Option FunctionSignature} {n : Name} {as : List Expr} {h : Str} (hh : Header sg n as h) (s : Str) :
    ∃ n m t, FnName n m ∧ h ++ s = m ++ t ∧ Next (fun c => ¬ IdentChar c) t ∧
      ∀ j u, gap 0 .GT t = .ok j u → ∀ w x, tag c!"module" u = .ok w x → NoGap x := by
  cases hh with
  | @plain _ _ m cs w hn ha hw =>
    refine ⟨n, m, cs ++ (w ++ '=' :: s), hn, by simp, ?_, ?_⟩
    · exact Spec.TermStop.ident (fargs_termStop ha (termStop_spaces hw))
    · intro j u k1 v x k2
      have hts : TermStop (w ++ '=' :: s) := termStop_spaces hw
      cases ha with
      | fargs0 =>
        have := (spacesTxt_gap hw 0 .GT).gap (r := '=' :: s) (noGap_of_ne (by decide))
        obtain ⟨-, rfl⟩ := ok_inj this k1
        rw [tag_cons_ne (by decide)] at k2
        cases k2
      | @fargs _ _ a as' w' c' cs' hw' hc hcs =>
        simp only [List.append_assoc] at k1
        have := (spacesTxt_gap hw' 0 .GT).gap (r := c' ++ (cs' ++ (w ++ '=' :: s))) (src_starts hc trivial).noGap
        obtain ⟨-, rfl⟩ := ok_inj this k1
        have ht : term 0 (c' ++ _) = _ := src_complete hc _ (fargs_termStop hcs hts)
        obtain ⟨-, e⟩ := tag_eq_ok.1 k2
        rw [e] at ht
        rcases x with _ | ⟨y, x⟩
        · exact noGap_nil
        · by_cases hy : IdentChar y
          · exact ident_noGap hy
          · have : term 0 (c!"module" ++ (y :: x)) = .err := termF_keyword (by decide) (next_cons.2 hy)
            rw [this] at ht
            cases ht
  | @signed _ _ h n' m' w g i t c k hn hw hg ht hk hh =>
    refine ⟨n', m', w ++ ':' :: (g ++ (c ++ '\n' :: (sp k ++ (h ++ s)))), hn, by simp, Spec.TermStop.ident (termStop_spaces hw), ?_⟩
    intro j u k1 v x k2
    have := (spacesTxt_gap hw 0 .GT).gap (r := ':' :: (g ++ (c ++ '\n' :: (sp k ++ (h ++ s))))) (noGap_of_ne (by decide))
    obtain ⟨-, rfl⟩ := ok_inj this k1
    rw [tag_cons_ne (by decide)] at k2
    cases k2

theorem header_last {sg : Option FunctionSignature} {n : Name} {as : List Expr} {h : Str} (hh : Header sg n as h) :
    ∃ q, h = q ++ ['='] := by
  induction hh with
  | @plain n as m cs w => exact ⟨m ++ cs ++ w, rfl⟩
  | @signed n as h n' m' w g i t c k _ _ _ _ _ _ ih =>
    obtain ⟨q, rfl⟩ := ih
    exact ⟨m' ++ w ++ c!":" ++ g ++ c ++ '\n' :: (sp k ++ q), by simp⟩

theorem header_notDecl {sg : Option FunctionSignature} {n : Name} {as : List Expr} {h s : Str} (hh : Header sg n as h) :
    NotDecl (h ++ s) := by
  obtain ⟨n, m, t, hn, e, ht, he⟩ := header_name hh s
  rw [e]
  cases hn with
  | op ho => exact notDecl_head (by decide)
  | lo hl =>
    have key : ∀ k ∈ keywords, ∀ v u, tag k (n ++ t) = .ok v u → NoGap u := fun k hk v u h => keyword_name hk hl ht h
    exact ⟨portModule_err fun v u k1 j x k2 => (noGap_gap (key _ (by decide) _ _ k1) k2).elim,
      effect_not_module hl ht he, module_err (key _ (by decide)), import_err (key _ (by decide)),
      typeAlias_err (key _ (by decide)), typeDecl_err (key _ (by decide)), portType_err (key _ (by decide)),
      port_err (key _ (by decide))⟩

theorem comment_err_head {y : Char} {t : Str} (h1 : y ≠ '-') (h2 : y ≠ '{') : comment (y :: t) = .err := by
  refine err_of cons_comment fun v u k => ?_
  unfold comment lineCommentStatement multiLineComment at k
  rcases alt_eq_ok.1 k with k | ⟨-, k⟩
  · simp only [bind_eq_ok] at k
    obtain ⟨_, s1, k1, -⟩ := k
    rw [preceded_apply, tag_cons_ne h1] at k1
    cases k1
  · obtain ⟨_, k1, -⟩ := pmap_eq_ok.1 k
    rw [preceded_apply, tag_cons_ne h2] at k1
    cases k1

theorem header_comment {sg : Option FunctionSignature} {n : Name} {as : List Expr} {h s : Str} (hh : Header sg n as h) :
    comment (h ++ s) = .err := by
  obtain ⟨n, m, t, hn, e, -⟩ := header_name hh s
  obtain ⟨y, z, rfl, hy⟩ := fnName_head hn
  rw [e]
  refine comment_err_head ?_ ?_ <;> rintro rfl <;> revert hy <;> decide

theorem infix_text {s r : Str} {x : Statement} (h : infixDeclaration s = .ok x r) :
    (∃ u, s = c!"infix" ++ u) ∧ ∃ a v n, x = .InfixDeclaration a v n := by
  unfold infixDeclaration at h
  simp only [bind_eq_ok, pure_eq_ok] at h
  obtain ⟨a, s1, k1, _, _, -, v, _, -, _, _, -, n, _, -, rfl, -⟩ := h
  obtain ⟨e1, -⟩ := assoc_iff.1 k1
  refine ⟨?_, a, v, n, rfl⟩
  cases a
  · exact ⟨s1, e1⟩
  · exact ⟨'l' :: s1, e1⟩
  · exact ⟨'r' :: s1, e1⟩

theorem port_header {n : Name} {as : List Name} {w1 cs w2 g s : Str} {i : Nat} (h1 : SpacesTxt w1) (hn : LoName n) (ha : PortArgs as cs)
    (h2 : SpacesTxt w2) (hg : GapTxt 0 .GT i g) (hs : NoGap s) :
    portDeclaration (c!"port" ++ (w1 ++ (n ++ (cs ++ (w2 ++ '=' :: (g ++ s)))))) =
      (expression i s).andThen fun e r => .ok (.PortDeclaration n as e) r := by
  have he : preceded spaces loName (w2 ++ '=' :: (g ++ s)) = .err := by
    rw [preceded_apply, spaces_ok h2 (next_cons.2 (by decide)), andThen_ok, loName_err_head (by decide) (by decide)]
  unfold portDeclaration
  rw [bind_apply, tag_ok, andThen_ok, bind_apply, spaces_ok h1 (loName_notSpace hn _), andThen_ok, bind_apply,
    loName_complete hn (tokenEnd_ident (portArgs_tokenEnd ha (spaces_tokenEnd h2))), andThen_ok, bind_apply,
    many0_ok_of_run (portArgs_run ha (spaces_tokenEnd h2)) he, andThen_ok, bind_apply,
    spaces_ok h2 (next_cons.2 (by decide)), andThen_ok, bind_apply, char_cons, andThen_ok, bind_apply, hg.gap hs, andThen_ok,
    bind_apply]
  rfl

theorem port_statement {n : Name} {as : List Name} {w1 cs w2 s : Str} (h1 : SpacesTxt w1) (hn : LoName n) (ha : PortArgs as cs)
    (h2 : SpacesTxt w2) : statement (c!"port" ++ (w1 ++ (n ++ (cs ++ (w2 ++ '=' :: s))))) =
      portDeclaration (c!"port" ++ (w1 ++ (n ++ (cs ++ (w2 ++ '=' :: s))))) := by
  have e1 := port_not_module (t := cs ++ (w2 ++ '=' :: s)) h1 hn (tokenEnd_ident (portArgs_tokenEnd ha (spaces_tokenEnd h2)))
  have e2 := port_not_type (t := s) h1 hn ha h2
  generalize hu : w1 ++ (n ++ (cs ++ (w2 ++ '=' :: s))) = u at *
  have hu' : Next (fun c => ¬ IdentChar c) u := hu ▸ tokenEnd_ident (spaces_tokenEnd h1)
  have e0 : functionNameOrOp (c!"port" ++ u) = .err := by
    unfold functionNameOrOp
    rw [alt_apply, loName_keyword (by decide) hu', orElse_err, delimited_apply]
    exact congrArg (Res.andThen · _) (char_cons_ne _ (by decide))
  have e3 : function 0 (c!"port" ++ u) = .err := by
    change functionF expression 0 _ = _
    unfold functionF functionDefinitionF functionSignature
    simp only [bind_apply, opt_apply, terminated_apply, e0, andThen_err, orElse_err, andThen_ok]
  have e4 : infixDeclaration (c!"port" ++ u) = .err := infix_err_head (by decide)
  have e5 : comment (c!"port" ++ u) = .err := comment_err_head (by decide) (by decide)
  unfold statement
  simp only [alt_apply, e1, e2, effectModule_err (tag_no2 (s := c!"port" ++ u) (tag_cons_ne (by decide))),
    module_err (tag_no2 (s := c!"port" ++ u) (tag_cons_ne (by decide))), import_err (tag_no2 (s := c!"port" ++ u) (tag_cons_ne (by decide))),
    typeAlias_err (tag_no2 (s := c!"port" ++ u) (tag_cons_ne (by decide))), typeDecl_err (tag_no2 (s := c!"port" ++ u) (tag_cons_ne (by decide))),
    pmap_apply, e3, e4, e5, Res.orElse, Res.andThen]
  cases portDeclaration (c!"port" ++ u) <;> rfl

/-- After a header a declaration is read as its body is; except that the header can be that of an infix declaration. -/
theorem declHeader_statement {mk : Expr → Statement} {h g s : Str} {i : Nat} (hh : DeclHeader mk h) (hg : GapTxt 0 .GT i g)
    (hs : NoGap s) (x : Statement) (r : Str) (hx : (¬ ∃ a v n, x = .InfixDeclaration a v n) ∨ ¬ c!"infix" <+: h) :
    statement (h ++ (g ++ s)) = .ok x r ↔ ∃ e, expression i s = .ok e r ∧ x = mk e := by
  have res : ∀ {F : Expr → Statement}, ((expression i s).andThen fun e r => .ok (F e) r) = .ok x r ↔
      ∃ e, expression i s = .ok e r ∧ x = F e := by
    intro F
    cases expression i s with
    | ok e r' =>
      simp only [andThen_ok, Res.ok.injEq]
      constructor
      · rintro ⟨rfl, rfl⟩; exact ⟨e, ⟨rfl, rfl⟩, rfl⟩
      · rintro ⟨e', ⟨rfl, rfl⟩, rfl⟩; exact ⟨rfl, rfl⟩
    | _ => exact ⟨nofun, fun ⟨_, h, _⟩ => nomatch h⟩
  cases hh with
  | @port n as w1 cs w2 h1 hn ha h2 =>
    simp only [List.append_assoc, List.cons_append, List.nil_append]
    have e1 := port_statement (s := g ++ s) h1 hn ha h2
    have e2 := port_header h1 hn ha h2 hg hs
    simp only [List.cons_append, List.nil_append] at e1 e2
    rw [e1, e2, res]
  | @fn sg n as _ hh =>
    have hf := header_function hh hg hs
    have hd : NotDecl (h ++ (g ++ s)) := header_notDecl hh
    rcases err_or_ok (fun k => cons_function k 0) (h ++ (g ++ s)) with h' | ⟨f, r', h', -⟩
    · rw [hd.other h']
      constructor
      · intro k
        exfalso
        rcases alt_eq_ok.1 k with k | ⟨-, k⟩
        · obtain ⟨⟨u, e2⟩, h3⟩ := infix_text k
          rcases hx with hx | hi
          · exact hx h3
          rcases List.append_eq_append_iff.1 e2 with ⟨z, e3, -⟩ | ⟨z, e3, -⟩
          · obtain ⟨q, rfl⟩ := header_last hh
            have : '=' ∈ c!"infix" := by rw [e3]; simp
            revert this; decide
          · exact hi ⟨z, e3.symm⟩
        · rw [header_comment hh] at k; cases k
      · rintro ⟨e, h1, rfl⟩
        rw [h1, andThen_ok] at hf
        rw [hf] at h'
        cases h'
    · rw [hd.fn h', ← res (F := fun e => .Function (.mk sg (.mk n as e)))]
      rw [h'] at hf
      cases he : expression i s with
      | ok e r'' =>
        rw [he] at hf
        simp only [andThen_ok, Res.ok.injEq] at hf ⊢
        rw [hf.1, hf.2]
      | _ => rw [he] at hf; cases hf

theorem declHeader_head {mk : Expr → Statement} {h : Str} (hh : DeclHeader mk h) (t : Str) : StmtHead (h ++ t) := by
  cases hh with
  | fn hh => exact header_head hh t
  | port => exact stmtHead_word (by decide) (by decide)

/-! ### What follows -/

theorem Spec.Below.mono {n n' : Nat} {b : Str} (h : Below n b) (hn : n ≤ n') : Below n' b := by
  cases h with
  | nil => exact .nil
  | line h1 h2 h3 h4 => exact .line (fun l hl => ⟨(h1 l hl).1, Nat.lt_of_lt_of_le (h1 l hl).2 hn⟩) h2 (Nat.lt_of_lt_of_le h3 hn) h4

/-- A line comment, or the text of a statement. -/
def HeadOk (c : Str) : Prop := (∃ t, c = c!"--" ++ t ∧ '\n' ∉ t) ∨ ∀ t, StmtHead (c ++ t)

theorem headOk {x : Statement} {c : Str} (h : statement c = .ok x []) : HeadOk c := by
  rcases statement_sound h with ⟨t, -, e, ht, -⟩ | ⟨d, e, hd⟩
  · rw [List.append_nil] at e
    exact .inl ⟨t, e, ht⟩
  · rw [List.append_nil] at e
    subst e
    exact .inr (stmtHead_stmt hd)

theorem rows_edge (cs : List (Nat × Str)) : Next (· = '\n') (rows cs) := by
  cases cs with
  | nil => exact next_nil _
  | cons => exact next_cons.2 rfl

theorem stmtStop_blank {t : Str} (k : Nat) (h : StmtStop ('\n' :: t)) : StmtStop ('\n' :: (List.replicate k '\n' ++ t)) := by
  induction k with
  | zero => exact h
  | succ k ih => exact stmtStop_white (.inr (.inr (.inr rfl))) ih

theorem rows_stop {cs : List (Nat × Str)} (h : ∀ c ∈ cs, HeadOk c.2) : StmtStop (rows cs) := by
  induction cs with
  | nil => exact stmtStop_nil
  | cons c cs ih =>
    obtain ⟨k, c⟩ := c
    have ih := ih fun d hd => h d (List.mem_cons_of_mem _ hd)
    refine stmtStop_blank k ?_
    rcases h (k, c) (by simp) with ⟨t, rfl, ht⟩ | h
    · exact stmtStop_white (.inr (.inr (.inr rfl))) (stmtStop_line ht (rows_edge cs) ih)
    · exact stmtStop_newline (h _)

theorem rows_follow {cs : List (Nat × Str)} (h : ∀ c ∈ cs, HeadOk c.2) : Follow (rows cs) where
  stop := rows_stop h
  white := Next.imp (rows_edge cs) fun c h => by subst h; decide
  cut := by
    have : fromNewline (rows cs) = rows cs := by
      cases cs with
      | nil => rfl
      | cons => rfl
    rw [this]
    exact rows_stop h

theorem below_blank {t : Str} (k : Nat) (h : Below 1 ('\n' :: t)) : Below 1 ('\n' :: (List.replicate k '\n' ++ t)) := by
  induction k with
  | zero => exact h
  | succ k ih =>
    generalize hu : List.replicate k '\n' ++ t = u at ih
    cases ih with
    | @line ls last t' h1 h2 h3 h4 =>
      have := Below.line (n := 1) (ls := ⟨0, none⟩ :: ls) (last := last) (t := t')
        (List.forall_mem_cons.2 ⟨⟨fun _ h => (nomatch h), Nat.one_pos⟩, h1⟩) h2 h3 h4
      simpa [List.replicate_succ, hu, gapText, Line.text, commentText, sp] using this

theorem rows_below {cs : List (Nat × Str)} (h : ∀ c ∈ cs, HeadOk c.2) : Below 1 (rows cs) := by
  induction cs with
  | nil => exact .nil
  | cons c cs ih =>
    obtain ⟨k, c⟩ := c
    have ih := ih fun d hd => h d (List.mem_cons_of_mem _ hd)
    refine below_blank k ?_
    rcases h (k, c) (by simp) with ⟨t, rfl, ht⟩ | h
    · have hl : (⟨0, some t⟩ : Line).ok := by rintro _ e; cases e; exact ht
      cases ih' : rows cs with
      | nil =>
        have := Below.line (n := 1) (ls := []) (last := ⟨0, some t⟩) (t := []) (by simp) hl Nat.one_pos (.inr ⟨by simp, rfl⟩)
        simpa [gapText, Line.text, commentText, sp] using this
      | cons x u =>
        rw [ih'] at ih
        cases ih with
        | @line ls last t' h1 h2 h3 h4 =>
          have := Below.line (n := 1) (ls := ⟨0, some t⟩ :: ls) (last := last) (t := t')
            (List.forall_mem_cons.2 ⟨⟨hl, Nat.one_pos⟩, h1⟩) h2 h3 h4
          simpa [gapText, Line.text, commentText, sp] using this
    · have := Below.line (n := 1) (ls := []) (last := ⟨0, none⟩) (t := c ++ rows cs) (by simp) (fun _ h => (nomatch h)) (by decide)
        (.inl ⟨rfl, (h _).noGap, by
          rintro ⟨u, e⟩
          obtain ⟨x, v, e', hx⟩ := (h (rows cs)).head
          rw [← e] at e'
          cases e'
          revert hx; decide⟩)
      simpa [gapText, Line.text, commentText, sp] using this

/-- Statements of which each, alone, is read as such before any further statements on lines of their own. -/
theorem file_rows {p : Statement × Str} {ps : List (Nat × Statement × Str)}
    (h : ∀ q ∈ p :: ps.map (·.2), HeadOk q.2 ∧
      ∀ cs, (∀ c ∈ cs, HeadOk c.2) → statement (q.2 ++ rows cs) = .ok q.1 (rows cs)) :
    file (p.2 ++ rows (ps.map fun q => (q.1, q.2.2))) = .ok (p.1 :: ps.map (·.2.1)) [] := by
  have hw : ∀ q ∈ p :: ps.map (·.2), ∀ t, Next (fun c => ¬ White c) (q.2 ++ t) := fun q hq t => by
    rcases (h q hq).1 with ⟨u, e, -⟩ | h
    · rw [e]; exact next_cons.2 (by decide)
    · obtain ⟨x, v, e, hx⟩ := (h t).head
      rw [e]
      refine next_cons.2 ?_
      rcases hx with hx | rfl | rfl | rfl
      · rintro (rfl | rfl | rfl | rfl) <;> revert hx <;> decide
      all_goals decide
  have heads : ∀ qs : List (Nat × Statement × Str), (∀ q ∈ qs, q ∈ ps) →
      ∀ c ∈ qs.map (fun q => (q.1, q.2.2)), HeadOk c.2 := by
    intro qs hq c hc
    obtain ⟨q, h1, rfl⟩ := List.mem_map.1 hc
    exact (h q.2 (List.mem_cons_of_mem _ (List.mem_map_of_mem (hq q h1)))).1
  have run : ∀ qs : List (Nat × Statement × Str), (∀ q ∈ qs, q ∈ ps) →
      Run (preceded multispace statement) (rows (qs.map fun q => (q.1, q.2.2))) (qs.map (·.2.1)) [] := by
    intro qs
    induction qs with
    | nil => exact fun _ => .nil _
    | cons q qs ih =>
      intro hq
      obtain ⟨k, x, c⟩ := q
      have hq' : (x, c) ∈ p :: ps.map (·.2) := List.mem_cons_of_mem _ (List.mem_map.2 ⟨_, hq _ (List.mem_cons_self), rfl⟩)
      have hqs : ∀ q ∈ qs, q ∈ ps := fun q h => hq q (List.mem_cons_of_mem _ h)
      refine run_cons (cons_preceded' cons_multispace cons_statement) (r := rows (qs.map fun q => (q.1, q.2.2))) ?_ (ih hqs)
      refine preceded_eq_ok.2 ⟨'\n' :: List.replicate k '\n', c ++ rows (qs.map fun q => (q.1, q.2.2)),
        multispace_iff.2 ⟨rfl, by simp, ?_, hw _ hq' _⟩, (h _ hq').2 _ (heads qs hqs)⟩
      intro y hy
      rcases List.mem_cons.1 hy with rfl | hy
      · decide
      · rw [List.eq_of_mem_replicate hy]; decide
  unfold file statements
  refine terminated_eq_ok.2 ⟨[], (), ?_, rfl⟩
  refine delimited_eq_ok.2 ⟨[], _, [], [], multispace0_iff.2 ⟨rfl, by simp, hw p (by simp) _⟩, ?_,
    multispace0_iff.2 ⟨by simp, by simp, next_nil _⟩⟩
  rw [sepNonemptyList_multispace0]
  exact (sepNonemptyList_iff cons_multispace cons_statement).2
    ⟨p.1, ps.map (·.2.1), rows (ps.map fun q => (q.1, q.2.2)), rfl, (h p (by simp)).2 _ (heads ps fun _ h => h),
      run ps fun _ h => h, rfl⟩

end ElmParser
