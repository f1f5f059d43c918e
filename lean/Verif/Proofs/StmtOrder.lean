import Verif.Proofs.StmtComplete

/-! The alternatives of `statement` do not get in each other's way; whole files are read back. -/
namespace ElmParser
open Spec

variable {s r : Str}

theorem err_of {α : Type} {p : Parser α} (hp : ∀ k, Cons k p) (h : ∀ v t, p s = .ok v t → False) : p s = .err := by
  rcases err_or_ok hp s with e | ⟨v, t, e, -⟩
  · exact e
  · exact (h v t e).elim

theorem ok_inj {α : Type} {p : Parser α} {v w : α} {t u : Str} (h : p s = .ok v t) (h' : p s = .ok w u) :
    v = w ∧ t = u := by
  rw [h] at h'
  exact ⟨(Res.ok.inj h').1, (Res.ok.inj h').2⟩

/-! ### Keywords and names -/

/-- Two words at the start of the same text: they are equal, or the second one is shorter. -/
theorem word_cases {n k t u : Str} (hk : ∀ c ∈ k, IdentChar c) (hn : ∀ c ∈ n, IdentChar c)
    (ht : Next (fun c => ¬ IdentChar c) t) (h : n ++ t = k ++ u) :
    (n = k ∧ t = u) ∨ ∃ x v, u = x :: v ∧ IdentChar x := by
  induction n generalizing k with
  | nil =>
    cases k with
    | nil => exact .inl ⟨rfl, h⟩
    | cons x k =>
      rw [List.nil_append] at h
      subst h
      exact absurd (hk x (by simp)) (next_cons.1 ht)
  | cons y n ih =>
    cases k with
    | nil =>
      rw [List.nil_append] at h
      exact .inr ⟨y, n ++ t, h.symm, hn y (by simp)⟩
    | cons x k =>
      simp only [List.cons_append, List.cons.injEq] at h
      obtain ⟨rfl, h0⟩ := h
      rcases ih (fun c hc => hk c (List.mem_cons_of_mem _ hc)) (fun c hc => hn c (List.mem_cons_of_mem _ hc)) h0 with
        ⟨rfl, h'⟩ | h'
      · exact .inl ⟨rfl, h'⟩
      · exact .inr h'

theorem loName_ident {n : Name} (h : LoName n) : ∀ c ∈ n, IdentChar c := by
  rcases h with rfl | ⟨⟨x, t, rfl, hx, ht⟩, -⟩
  · intro c hc
    simp only [List.mem_cons, List.not_mem_nil, or_false] at hc
    exact .inr (.inr (.inr hc))
  · intro c hc
    rcases List.mem_cons.1 hc with rfl | hc
    · exact .inl hx
    · exact ht c hc

theorem loName_ne_keyword {n k : Name} (h : LoName n) (hk : k ∈ keywords) : n ≠ k := by
  rintro rfl
  rcases h with rfl | ⟨-, h⟩
  · revert hk; decide
  · exact h hk

theorem keyword_ident {k : Str} (hk : k ∈ keywords) : ∀ c ∈ k, IdentChar c := by
  have : ∀ k ∈ keywords, ∀ c ∈ k, IdentChar c := by decide
  exact this k hk

theorem ident_noGap {x : Char} {t : Str} (h : IdentChar x) : NoGap (x :: t) := by
  refine noGap_of_ne ⟨?_, ?_, ?_⟩ <;> rintro rfl <;> revert h <;> decide

/-- After a keyword at the start of a name there is no gap. -/
theorem keyword_name {n k t u v : Str} (hk : k ∈ keywords) (hn : LoName n) (ht : Next (fun c => ¬ IdentChar c) t)
    (h : tag k (n ++ t) = .ok v u) : NoGap u := by
  obtain ⟨-, h⟩ := tag_eq_ok.1 h
  rcases word_cases (keyword_ident hk) (loName_ident hn) ht h with ⟨rfl, -⟩ | ⟨x, w, rfl, hx⟩
  · exact absurd rfl (loName_ne_keyword hn hk)
  · exact ident_noGap hx

theorem noGap_gap {ind j : Nat} {ir : IR} {u t : Str} (h : NoGap u) (h' : gap ind ir u = .ok j t) : False := by
  rw [gap_none h] at h'; cases h'

theorem noGap_spaces {u t v : Str} (h : NoGap u) (h' : spaces u = .ok v t) : False := by
  rw [spaces_err.2 (Next.imp h.1 fun _ h => h.1)] at h'; cases h'

/-! ### Declarations that start with a keyword -/

theorem portModule_err (h : ∀ v t, tag c!"port" s = .ok v t → ∀ j u, gap 0 .GT t = .ok j u →
    ∀ w x, tag c!"module" u = .ok w x → NoGap x) : portModuleDeclaration s = .err := by
  refine err_of cons_portModuleDeclaration fun v t e => ?_
  unfold portModuleDeclaration at e
  simp only [bind_eq_ok] at e
  obtain ⟨_, s1, k1, i1, s2, k2, _, s3, k3, i2, s4, k4, -⟩ := e
  exact noGap_gap (h _ _ k1 _ _ k2 _ _ k3) k4

theorem effectModule_err (h : ∀ v t, tag c!"effect" s = .ok v t → ∀ j u, gap 0 .GT t = .ok j u →
    ∀ w x, tag c!"module" u = .ok w x → NoGap x) : effectModuleDeclaration s = .err := by
  refine err_of cons_effectModuleDeclaration fun v t e => ?_
  unfold effectModuleDeclaration at e
  simp only [bind_eq_ok] at e
  obtain ⟨_, s1, k1, i1, s2, k2, _, s3, k3, i2, s4, k4, -⟩ := e
  exact noGap_gap (h _ _ k1 _ _ k2 _ _ k3) k4

theorem module_err (h : ∀ v t, tag c!"module" s = .ok v t → NoGap t) : moduleDeclaration s = .err := by
  refine err_of cons_moduleDeclaration fun v t e => ?_
  unfold moduleDeclaration at e
  simp only [bind_eq_ok] at e
  obtain ⟨_, s1, k1, i1, s2, k2, -⟩ := e
  exact noGap_gap (h _ _ k1) k2

theorem import_err (h : ∀ v t, tag c!"import" s = .ok v t → NoGap t) : importStatement s = .err := by
  refine err_of cons_importStatement fun v t e => ?_
  unfold importStatement at e
  simp only [bind_eq_ok] at e
  obtain ⟨_, s1, k1, i1, s2, k2, -⟩ := e
  exact noGap_spaces (h _ _ k1) k2

theorem typeAlias_err (h : ∀ v t, tag c!"type" s = .ok v t → NoGap t) : typeAliasDeclaration s = .err := by
  refine err_of cons_typeAliasDeclaration fun v t e => ?_
  unfold typeAliasDeclaration at e
  simp only [bind_eq_ok] at e
  obtain ⟨_, s1, k1, i1, s2, k2, -⟩ := e
  exact noGap_spaces (h _ _ k1) k2

theorem typeDecl_err (h : ∀ v t, tag c!"type" s = .ok v t → NoGap t) : typeDeclaration 0 s = .err := by
  refine err_of (fun k => cons_typeDeclaration k 0) fun v t e => ?_
  unfold typeDeclaration at e
  simp only [bind_eq_ok] at e
  obtain ⟨_, s1, k1, i1, s2, k2, -⟩ := e
  exact noGap_spaces (h _ _ k1) k2

theorem portType_err (h : ∀ v t, tag c!"port" s = .ok v t → NoGap t) : portTypeDeclaration s = .err := by
  refine err_of cons_portTypeDeclaration fun v t e => ?_
  unfold portTypeDeclaration at e
  simp only [bind_eq_ok] at e
  obtain ⟨_, s1, k1, i1, s2, k2, -⟩ := e
  exact noGap_spaces (h _ _ k1) k2

theorem port_err (h : ∀ v t, tag c!"port" s = .ok v t → NoGap t) : portDeclaration s = .err := by
  refine err_of cons_portDeclaration fun v t e => ?_
  unfold portDeclaration at e
  simp only [bind_eq_ok] at e
  obtain ⟨_, s1, k1, i1, s2, k2, -⟩ := e
  exact noGap_spaces (h _ _ k1) k2

theorem tag_no2 {k : Str} {P : Str → Prop} (h : tag k s = .err) : ∀ v u, tag k s = .ok v u → P u := by
  intro v u e; rw [h] at e; cases e

/-- A port with this name is not a port module. -/
theorem port_not_module {w n t : Str} (hw : SpacesTxt w) (hn : LoName n) (ht : Next (fun c => ¬ IdentChar c) t) :
    portModuleDeclaration (c!"port" ++ (w ++ (n ++ t))) = .err := by
  refine portModule_err fun v u k1 j x k2 y z k3 => ?_
  obtain ⟨-, rfl⟩ := ok_inj (tag_ok _ _) k1
  have hg := (spacesTxt_gap hw 0 .GT).gap (loName_noGap (r := t) hn)
  obtain ⟨-, rfl⟩ := ok_inj hg k2
  exact keyword_name (by decide) hn ht k3

theorem port_not_type {w n cs w2 t : Str} {as : List Name} (hw : SpacesTxt w) (hn : LoName n) (ha : PortArgs as cs)
    (hw2 : SpacesTxt w2) : portTypeDeclaration (c!"port" ++ (w ++ (n ++ (cs ++ (w2 ++ '=' :: t))))) = .err := by
  refine err_of cons_portTypeDeclaration fun v u e => ?_
  unfold portTypeDeclaration at e
  simp only [bind_eq_ok] at e
  obtain ⟨_, s1, k1, _, s2, k2, _, s3, k3, _, s4, k4, _, s5, k5, -⟩ := e
  obtain ⟨-, rfl⟩ := ok_inj (tag_ok _ _) k1
  obtain ⟨-, rfl⟩ := ok_inj (spaces_ok hw (loName_notSpace hn _)) k2
  have hte : TokenEnd (cs ++ (w2 ++ '=' :: t)) := portArgs_tokenEnd ha (spaces_tokenEnd hw2)
  obtain ⟨-, rfl⟩ := ok_inj (loName_complete hn (tokenEnd_ident hte)) k3
  cases ha with
  | nil =>
    have h1 : spaces (w2 ++ '=' :: t) = .ok w2 ('=' :: t) := spaces_ok hw2 (next_cons.2 (by decide))
    obtain ⟨-, rfl⟩ := ok_inj h1 k4
    rw [char_cons_ne _ (by decide)] at k5
    cases k5
  | @cons n' ns' w' cs' hw' hn' ha' =>
    simp only [List.append_assoc] at k4
    obtain ⟨-, rfl⟩ := ok_inj (spaces_ok hw' (loName_notSpace hn' _)) k4
    obtain ⟨x, y, rfl, hx⟩ := loName_head hn'
    rw [List.cons_append, char_cons_ne] at k5
    · cases k5
    · rintro rfl; revert hx; decide

/-- A type declaration is not an alias declaration. -/
theorem type_not_alias {w c g t : Str} {u : Ty} {i : Nat} (hw : SpacesTxt w) (hc : TySrc 0 (.ty u) c)
    (hg : GapTxt 0 .GT i g) : typeAliasDeclaration (c!"type" ++ (w ++ (c ++ (g ++ '=' :: t)))) = .err := by
  refine err_of cons_typeAliasDeclaration fun v z e => ?_
  unfold typeAliasDeclaration at e
  simp only [bind_eq_ok] at e
  obtain ⟨_, s1, k1, _, s2, k2, _, s3, k3, w', s4, k4, t', s5, k5, -⟩ := e
  obtain ⟨-, rfl⟩ := ok_inj (tag_ok _ _) k1
  obtain ⟨-, rfl⟩ := ok_inj (spaces_ok hw (ty_notSpace hc trivial)) k2
  obtain ⟨-, h⟩ := tag_eq_ok.1 k3
  have hv : TyVar c := by
    have bad : ∀ x y, c = x :: y → ¬ Lower x → False := by
      rintro x y rfl hx
      rw [List.cons_append] at h
      have := (List.cons.inj h).1
      subst this
      revert hx; decide
    cases hc with
    | con h1 h2 _ =>
      obtain ⟨x, y, e, hx⟩ := dotted_head h1 h2
      exact (bad x _ (by rw [e]; rfl) (upper_not hx).1).elim
    | tyAtom hc =>
      cases hc with
      | var h => exact h
      | _ => exact (bad _ _ rfl (by decide)).elim
  have hid : ∀ x ∈ c, IdentChar x := by
    obtain ⟨x, y, rfl, hx, hy⟩ := hv
    intro z hz
    rcases List.mem_cons.1 hz with rfl | hz
    · exact .inl hx
    · exact tyVarChar_ident (hy z hz)
  rcases word_cases (keyword_ident (by decide)) hid (tokenEnd_ident (tokenEnd_gap hg)) h with ⟨-, rfl⟩ | ⟨x, y, rfl, hx⟩
  · obtain ⟨e1, hw'⟩ := spaces_sound k4
    obtain ⟨c', rfl, hc'⟩ := type_sound k5
    have g1 := hg.gap (r := '=' :: t) (noGap_of_ne (by decide))
    have g2 := (spacesTxt_gap hw' 0 .GT).gap (ty_head_noGap (r := s5) hc' trivial)
    rw [← e1] at g2
    obtain ⟨-, e2⟩ := ok_inj g1 g2
    obtain ⟨x, y, rfl, hx⟩ := TySrc_head hc' trivial
    rw [List.cons_append] at e2
    have := (List.cons.inj e2).1
    subst this
    simp [TyHead, Lower, Upper] at hx
  · exact noGap_spaces (ident_noGap hx) k4

/-! ### Functions -/

/-- The definition of `effect` is not an effect module. -/
theorem effect_not_module {n t : Str} (hn : LoName n) (ht : Next (fun c => ¬ IdentChar c) t)
    (h : ∀ j u, gap 0 .GT t = .ok j u → ∀ w x, tag c!"module" u = .ok w x → NoGap x) :
    effectModuleDeclaration (n ++ t) = .err := by
  refine effectModule_err fun v u k1 j x k2 y z k3 => ?_
  obtain ⟨-, e⟩ := tag_eq_ok.1 k1
  rcases word_cases (by decide) (loName_ident hn) ht e with ⟨-, rfl⟩ | ⟨a, b, rfl, ha⟩
  · exact h _ _ k2 _ _ k3
  · exact (noGap_gap (ident_noGap ha) k2).elim

/-- What comes after the name of a function is not the rest of an effect module. -/
theorem fn_effect {f : Function} {c : Str} (h : Src True 0 (.fn f) c) (r : Str) :
    ∃ n m t, FnName n m ∧ c ++ r = m ++ t ∧ Next (fun c => ¬ IdentChar c) t ∧
      ∀ j u, gap 0 .GT t = .ok j u → ∀ w x, tag c!"module" u = .ok w x → NoGap x := by
  cases h with
  | fn h =>
    cases h with
    | @defn _ _ i n as e m cs w g d hn ha hw hg hd =>
      refine ⟨n, m, cs ++ (w ++ '=' :: (g ++ (d ++ r))), hn, by simp, ?_, ?_⟩
      · exact Spec.TermStop.ident (fargs_termStop ha (termStop_spaces hw))
      · intro j u k1 v x k2
        have hts : TermStop (w ++ '=' :: (g ++ (d ++ r))) := termStop_spaces hw
        cases ha with
        | fargs0 =>
          have := (spacesTxt_gap hw 0 .GT).gap (r := '=' :: (g ++ (d ++ r))) (noGap_of_ne (by decide))
          obtain ⟨-, rfl⟩ := ok_inj this k1
          rw [tag_cons_ne (by decide)] at k2
          cases k2
        | @fargs _ _ a as' w' c' cs' hw' hc hcs =>
          simp only [List.append_assoc] at k1
          have := (spacesTxt_gap hw' 0 .GT).gap
            (r := c' ++ (cs' ++ (w ++ '=' :: (g ++ (d ++ r))))) (src_starts hc trivial).noGap
          obtain ⟨-, rfl⟩ := ok_inj this k1
          have ht := term_complete hc (fargs_termStop hcs hts)
          obtain ⟨-, e⟩ := tag_eq_ok.1 k2
          rw [e] at ht
          rcases x with _ | ⟨y, x⟩
          · exact noGap_nil
          · by_cases hy : IdentChar y
            · exact ident_noGap hy
            · have : term 0 (c!"module" ++ (y :: x)) = .err := termF_keyword (by decide) (next_cons.2 hy)
              rw [this] at ht
              cases ht
  | @fnSig _ _ i n t d m w g k c1 c hn hw hg ht hk hd =>
    refine ⟨n, m, w ++ ':' :: (g ++ (c1 ++ '\n' :: (sp k ++ (c ++ r)))), hn, by simp,
      Spec.TermStop.ident (termStop_spaces hw), ?_⟩
    intro j u k1 v x k2
    have := (spacesTxt_gap hw 0 .GT).gap (r := ':' :: (g ++ (c1 ++ '\n' :: (sp k ++ (c ++ r))))) (noGap_of_ne (by decide))
    obtain ⟨-, rfl⟩ := ok_inj this k1
    rw [tag_cons_ne (by decide)] at k2
    cases k2

/-- The first eight alternatives of `statement` fail. -/
structure NotDecl (s : Str) : Prop where
  portModule : portModuleDeclaration s = .err
  effectModule : effectModuleDeclaration s = .err
  module_ : moduleDeclaration s = .err
  import_ : importStatement s = .err
  typeAlias : typeAliasDeclaration s = .err
  type_ : typeDeclaration 0 s = .err
  portType : portTypeDeclaration s = .err
  port : portDeclaration s = .err

theorem notDecl_tags (h : ∀ k ∈ [c!"port", c!"effect", c!"module", c!"import", c!"type"], tag k s = .err) :
    NotDecl s where
  portModule := portModule_err (tag_no2 (h c!"port" (by simp)))
  effectModule := effectModule_err (tag_no2 (h c!"effect" (by simp)))
  module_ := module_err (tag_no2 (h c!"module" (by simp)))
  import_ := import_err (tag_no2 (h c!"import" (by simp)))
  typeAlias := typeAlias_err (tag_no2 (h c!"type" (by simp)))
  type_ := typeDecl_err (tag_no2 (h c!"type" (by simp)))
  portType := portType_err (tag_no2 (h c!"port" (by simp)))
  port := port_err (tag_no2 (h c!"port" (by simp)))

theorem notDecl_head {x : Char} {t : Str} (h : x ∉ ['p', 'e', 'm', 'i', 't']) : NotDecl (x :: t) := by
  refine notDecl_tags fun k hk => ?_
  simp only [List.mem_cons, List.not_mem_nil, or_false, not_or] at hk h
  rcases hk with rfl | rfl | rfl | rfl | rfl <;> refine tag_cons_ne ?_
  · exact h.1
  · exact h.2.1
  · exact h.2.2.1
  · exact h.2.2.2.1
  · exact h.2.2.2.2

theorem notDecl_fn {f : Function} {c : Str} (h : Src True 0 (.fn f) c) (r : Str) : NotDecl (c ++ r) := by
  obtain ⟨n, m, t, hn, e, ht, he⟩ := fn_effect h r
  rw [e]
  cases hn with
  | op ho => exact notDecl_head (by decide)
  | lo hl =>
    have key : ∀ k ∈ keywords, ∀ v u, tag k (n ++ t) = .ok v u → NoGap u := fun k hk v u h => keyword_name hk hl ht h
    exact ⟨portModule_err fun v u k1 j x k2 => (noGap_gap (key _ (by decide) _ _ k1) k2).elim,
      effect_not_module hl ht he, module_err (key _ (by decide)), import_err (key _ (by decide)),
      typeAlias_err (key _ (by decide)), typeDecl_err (key _ (by decide)), portType_err (key _ (by decide)),
      port_err (key _ (by decide))⟩

/-! ### Infix declarations are not functions -/

theorem assoc_loName (a : Assoc) : LoName (assocText a) := by
  cases a with
  | L => exact .inr ⟨⟨'i', c!"nfixl", rfl, by decide, by decide⟩, by decide⟩
  | R => exact .inr ⟨⟨'i', c!"nfixr", rfl, by decide, by decide⟩, by decide⟩
  | N => exact .inr ⟨⟨'i', c!"nfix", rfl, by decide, by decide⟩, by decide⟩

theorem operator_noTerm {n : Name} (h : Operator n) (hr : Next White r) : termF expression 0 (n ++ r) = .err := by
  obtain ⟨h1, h2, h3⟩ := h
  cases n with
  | nil => exact absurd rfl h1
  | cons x m =>
    have hx := h2 x (by simp)
    have hnext : Next (fun c => ¬ IdentChar c) (m ++ r) := by
      cases m with
      | nil => exact Next.imp hr fun _ h => (white_not h).1
      | cons y m => exact next_cons.2 (opChar_not (h2 y (by simp))).1
    rw [List.cons_append]
    by_cases hs : x = '+' ∨ x = '-'
    · exact termF_sign_err hs (Next.imp hnext fun _ h => (ident_digit h).1)
    · by_cases hd : x = '.'
      · subst hd
        rw [termF_dot]
        exact accessFunction_err_next (Next.imp hnext fun _ h => ⟨(ident_digit h).2.1, (ident_digit h).2.2.2⟩)
      · refine termF_err_head ?_
        have := opChar_not hx
        rintro (h | h | h | h)
        · exact this.1 (.inl h)
        · exact this.1 (.inr (.inl h))
        · exact this.1 (.inr (.inr (.inl h)))
        · simp only [List.mem_cons, List.not_mem_nil, or_false] at h
          simp only [not_or] at hs
          rcases h with rfl | rfl | rfl | rfl | rfl | rfl | rfl | rfl | rfl
          · revert hx; decide
          · revert hx; decide
          · exact hd rfl
          · revert hx; decide
          · exact hs.1 rfl
          · exact hs.2 rfl
          · revert hx; decide
          · revert hx; decide
          · revert hx; decide

theorem gap_stop_expr {j : Nat} {u t : Str} {e : Expr} (h : StmtStop s) (h1 : gap 0 .GT s = .ok j u)
    (h2 : expression j u = .ok e t) : False := by
  rcases h with h | ⟨ls, last, r', hg, h⟩
  · exact noGap_gap (tabCr_noGap h) h1
  · obtain ⟨rfl, h3⟩ := (gap_of_gap hg 0 .GT).1 h1
    rcases h with h | ⟨h4, h5, -⟩
    · cases u with
      | nil => rw [expression_nil] at h2; cases h2
      | cons x u =>
        rw [expression_err_white (by rcases next_cons.1 h with rfl | rfl <;> decide)] at h2
        cases h2
    · rcases h3 with ⟨h3, -⟩ | ⟨-, -, h3⟩
      · exact h4 h3
      · rw [h5] at h3
        exact absurd h3 (by simp [Rel])

theorem infix_not_fn {a : Assoc} {n : Name} {w1 d w2 : Str} (h1 : SpacesTxt w1) (hd : Digits d)
    (h2 : SpacesTxt w2) (hn : LoName n ∨ Operator n) (hr : Follow r) :
    function 0 (assocText a ++ (w1 ++ (d ++ (w2 ++ (n ++ r))))) = .err := by
  have hname : functionNameOrOp (assocText a ++ (w1 ++ (d ++ (w2 ++ (n ++ r))))) = .ok _ _ :=
    functionNameOrOp_ok (.lo (assoc_loName a)) (tokenEnd_ident (spaces_tokenEnd h1))
  have hsp1 : spaces (w1 ++ (d ++ (w2 ++ (n ++ r)))) = .ok _ _ := spaces_ok h1 (digits_notSpace hd)
  refine err_of (fun k => cons_function k 0) fun f t e => ?_
  unfold function functionF at e
  simp only [bind_eq_ok] at e
  obtain ⟨o, s1, k1, df, s2, k2, -⟩ := e
  have hs1 : s1 = assocText a ++ (w1 ++ (d ++ (w2 ++ (n ++ r)))) := by
    rcases opt_eq_ok.1 k1 with ⟨sg, k3, -⟩ | ⟨-, -, h⟩
    · exfalso
      obtain ⟨t1, _, k4, -⟩ := terminated_eq_ok.1 k3
      unfold functionSignature at k4
      simp only [bind_eq_ok] at k4
      obtain ⟨_, t2, l1, _, t3, l2, _, t4, l3, -⟩ := k4
      obtain ⟨-, rfl⟩ := ok_inj hname l1
      obtain ⟨-, rfl⟩ := ok_inj hsp1 l2
      obtain ⟨hne, hdig⟩ := hd
      cases d with
      | nil => exact absurd rfl hne
      | cons x d =>
        have := hdig x (by simp)
        rw [List.cons_append, char_cons_ne] at l3
        · cases l3
        · rintro rfl; revert this; decide
    · exact h
  subst hs1
  unfold functionDefinitionF at k2
  simp only [bind_eq_ok] at k2
  obtain ⟨_, t1, l1, as, t2, l2, _, t3, l3, _, t4, l4, j, t5, l5, b, t6, l6, -⟩ := k2
  obtain ⟨-, rfl⟩ := ok_inj hname l1
  have hcons : ∀ k, Cons k (preceded spaces (termF expression 0)) := cons_preceded' cons_spaces fun k => cons_term k 0
  have harg1 : preceded spaces (termF expression 0) (w1 ++ (d ++ (w2 ++ (n ++ r)))) =
      .ok (.Integer d) (w2 ++ (n ++ r)) := by
    refine preceded_eq_ok.2 ⟨_, _, hsp1, ?_⟩
    have : Src True 0 (.term (.Integer d)) d := .int ⟨[], d, rfl, .inl rfl, hd⟩
    exact term_complete this (termStop_spaces h2)
  rcases hn with hn | hn
  · have harg2 : preceded spaces (termF expression 0) (w2 ++ (n ++ r)) = .ok (.Variable [n]) r := by
      refine preceded_eq_ok.2 ⟨_, _, spaces_ok h2 (loName_notSpace hn _), ?_⟩
      have : Src True 0 (.term (.Variable [n])) n := .var (.lo hn)
      exact term_complete this hr.termStop
    have hm := many0_ok_of_run (run_cons hcons harg1 (run_cons hcons harg2 (.nil _))) hr.stop.noArg
    obtain ⟨-, rfl⟩ := ok_inj hm l2
    have := hr.stop.noWord (p := char '=') rfl (by
      intro x t hx
      refine char_cons_ne _ ?_
      rintro rfl
      rcases hx with hx | hx
      · revert hx; decide
      · cases hx)
    rw [preceded_apply, l3, andThen_ok, l4] at this
    cases this
  · have hend : preceded spaces (termF expression 0) (w2 ++ (n ++ r)) = .err := by
      rw [preceded_apply, spaces_ok h2 (operator_notSpace hn), andThen_ok]
      exact operator_noTerm hn hr.white
    have hm := many0_ok_of_run (run_cons hcons harg1 (.nil _)) hend
    obtain ⟨-, rfl⟩ := ok_inj hm l2
    obtain ⟨-, rfl⟩ := ok_inj (spaces_ok h2 (operator_notSpace hn)) l3
    obtain ⟨-, e⟩ := char_eq_ok.1 l4
    obtain ⟨hne, hops, hres⟩ := hn
    cases n with
    | nil => exact hne rfl
    | cons x m =>
      rw [List.cons_append] at e
      obtain ⟨rfl, rfl⟩ := List.cons.inj e
      have hm : ∀ c ∈ m, OpChar c := fun c hc => hops c (List.mem_cons_of_mem _ hc)
      by_cases hc : ∃ m', m = '-' :: '-' :: m'
      · obtain ⟨m', rfl⟩ := hc
        obtain ⟨p, e1, e2, e3⟩ := fromNewline_split r
        have hnl : '\n' ∉ m' ++ p := by
          rw [List.mem_append]
          rintro (h | h)
          · have := hm '\n' (by simp [h])
            revert this; decide
          · exact e2 h
        have hstop := stmtStop_line hnl e3 hr.cut
        have : '-' :: '-' :: (m' ++ p) ++ fromNewline r = '-' :: '-' :: m' ++ r := by
          rw [List.cons_append, List.cons_append, List.append_assoc, ← e1]
          rfl
        rw [this] at hstop
        exact gap_stop_expr hstop l5 l6
      · refine noGap_gap ?_ l5
        cases m with
        | nil => exact absurd (by simp [reservedOps]) hres
        | cons y m =>
          have hy := hm y (by simp)
          refine ⟨next_cons.2 ?_, ?_⟩
          · constructor <;> rintro rfl <;> revert hy <;> decide
          · rintro t e
            rw [List.cons_append] at e
            obtain ⟨rfl, e'⟩ := List.cons.inj e
            cases m with
            | nil =>
              rw [List.nil_append] at e'
              subst e'
              have := next_cons.1 hr.white
              revert this; decide
            | cons z m =>
              obtain ⟨rfl, -⟩ := List.cons.inj e'
              exact hc ⟨m, rfl⟩

/-! ### Statements -/

theorem NotDecl.fn (h : NotDecl s) {f : Function} (h' : function 0 s = .ok f r) : statement s = .ok (.Function f) r := by
  unfold statement
  simp only [alt_apply, h.portModule, h.effectModule, h.module_, h.import_, h.typeAlias, h.type_, h.portType, h.port,
    pmap_apply, h', Res.orElse, Res.andThen]

theorem NotDecl.other (h : NotDecl s) (h' : function 0 s = .err) : statement s = (infixDeclaration </> comment) s := by
  unfold statement
  simp only [alt_apply, h.portModule, h.effectModule, h.module_, h.import_, h.typeAlias, h.type_, h.portType, h.port,
    pmap_apply, h', Res.orElse, Res.andThen]

theorem function_err_head {x : Char} {t : Str} (h : ¬ Lower x) (h1 : x ≠ '_') (h2 : x ≠ '(') :
    function 0 (x :: t) = .err := by
  have hn : functionNameOrOp (x :: t) = .err := by
    unfold functionNameOrOp
    rw [alt_apply, loName_err_head h h1, delimited_apply, char_cons_ne _ h2]
    rfl
  refine err_of (fun k => cons_function k 0) fun f u e => ?_
  unfold function functionF at e
  simp only [bind_eq_ok] at e
  obtain ⟨o, s1, k1, df, s2, k2, -⟩ := e
  have hs1 : s1 = x :: t := by
    rcases opt_eq_ok.1 k1 with ⟨sg, k3, -⟩ | ⟨-, -, h⟩
    · exfalso
      obtain ⟨t1, _, k4, -⟩ := terminated_eq_ok.1 k3
      unfold functionSignature at k4
      simp only [bind_eq_ok] at k4
      obtain ⟨_, t2, l1, -⟩ := k4
      rw [hn] at l1; cases l1
    · exact h
  subst hs1
  unfold functionDefinitionF at k2
  simp only [bind_eq_ok] at k2
  obtain ⟨_, t1, l1, -⟩ := k2
  rw [hn] at l1; cases l1

theorem infix_err_head {x : Char} {t : Str} (h : x ≠ 'i') : infixDeclaration (x :: t) = .err := by
  refine err_of cons_infixDeclaration fun v u e => ?_
  unfold infixDeclaration at e
  simp only [bind_eq_ok] at e
  obtain ⟨a, s1, k1, -⟩ := e
  obtain ⟨e, -⟩ := assoc_iff.1 k1
  cases a <;> exact h (List.cons.inj e).1

/-- A line comment is read up to the end of its line. -/
theorem statement_line {t : Str} (ht : '\n' ∉ t) (hr : Next (· = '\n') r) :
    statement ('-' :: '-' :: t ++ r) = .ok (.Comment t) r := by
  have h1 : function 0 ('-' :: '-' :: t ++ r) = .err := function_err_head (by decide) (by decide) (by decide)
  have h2 : NotDecl ('-' :: '-' :: t ++ r) := notDecl_head (by decide)
  have h3 : infixDeclaration ('-' :: '-' :: t ++ r) = .err := infix_err_head (by decide)
  rw [h2.other h1]
  refine alt_eq_ok.2 (.inr ⟨h3, alt_eq_ok.2 (.inl ?_)⟩)
  exact lineCommentStatement_iff.2 ⟨t, rfl, rfl, ht, hr⟩

theorem statement_complete {x : Statement} {c : Str} (h : StmtSrc True x c) (hr : Follow r) :
    statement (c ++ r) = .ok x r := by
  cases h with
  | portModule h1 h2 h3 h4 h5 h6 h7 =>
    unfold statement
    exact alt_eq_ok.2 (.inl (portModule_ok h1 h2 h3 h4 h5 h6 h7 r))
  | effectModule h1 h2 h3 h4 h5 h6 h7 h8 h9 h10 =>
    unfold statement
    refine alt_eq_ok.2 (.inr ⟨portModule_err (tag_no2 ?_), alt_eq_ok.2 (.inl (effectModule_ok h1 h2 h3 h4 h5 h6 h7 h8 h9 h10 r))⟩)
    exact tag_cons_ne (by decide)
  | module_ h1 h2 h3 h4 h5 h6 =>
    unfold statement
    refine alt_eq_ok.2 (.inr ⟨portModule_err (tag_no2 ?_), alt_eq_ok.2 (.inr ⟨effectModule_err (tag_no2 ?_),
      alt_eq_ok.2 (.inl (module_ok h1 h2 h3 h4 h5 h6 r))⟩)⟩) <;> exact tag_cons_ne (by decide)
  | import_ h1 h2 h3 h4 h5 =>
    unfold statement
    refine alt_eq_ok.2 (.inr ⟨portModule_err (tag_no2 ?_), alt_eq_ok.2 (.inr ⟨effectModule_err (tag_no2 ?_),
      alt_eq_ok.2 (.inr ⟨module_err (tag_no2 ?_), alt_eq_ok.2 (.inl (import_ok h1 h2 h3 h4 h5 hr))⟩)⟩)⟩) <;>
      exact tag_cons_ne (by decide)
  | typeAlias h1 h2 h3 h4 h5 h6 =>
    unfold statement
    refine alt_eq_ok.2 (.inr ⟨portModule_err (tag_no2 ?_), alt_eq_ok.2 (.inr ⟨effectModule_err (tag_no2 ?_),
      alt_eq_ok.2 (.inr ⟨module_err (tag_no2 ?_), alt_eq_ok.2 (.inr ⟨import_err (tag_no2 ?_), alt_eq_ok.2
      (.inl (typeAlias_ok h1 h2 h3 h4 h5 h6 hr))⟩)⟩)⟩)⟩) <;> exact tag_cons_ne (by decide)
  | @type_ t ns ts us w g1 i g2 i2 c d ds h1 h2 h3 h4 h5 h6 =>
    have e := type_not_alias (t := g2 ++ (d ++ (ds ++ r))) h1 h2 h3
    have ok := typeDecl_ok h1 h2 h3 h4 h5 h6 hr
    simp only [List.append_assoc, List.cons_append, List.nil_append] at e ok ⊢
    unfold statement
    refine alt_eq_ok.2 (.inr ⟨portModule_err (tag_no2 ?_), alt_eq_ok.2 (.inr ⟨effectModule_err (tag_no2 ?_),
      alt_eq_ok.2 (.inr ⟨module_err (tag_no2 ?_), alt_eq_ok.2 (.inr ⟨import_err (tag_no2 ?_), alt_eq_ok.2
      (.inr ⟨e, alt_eq_ok.2 (.inl ok)⟩)⟩)⟩)⟩)⟩) <;> exact tag_cons_ne (by decide)
  | @portType n t w1 w2 g i c h1 h2 h3 h4 h5 =>
    have e := port_not_module (t := w2 ++ ':' :: (g ++ (c ++ r))) h1 h2 (tokenEnd_ident (spaces_tokenEnd h3))
    have ok := portType_ok h1 h2 h3 h4 h5 hr
    simp only [List.append_assoc, List.cons_append, List.nil_append] at e ok ⊢
    unfold statement
    refine alt_eq_ok.2 (.inr ⟨e, alt_eq_ok.2 (.inr ⟨effectModule_err (tag_no2 ?_),
      alt_eq_ok.2 (.inr ⟨module_err (tag_no2 ?_), alt_eq_ok.2 (.inr ⟨import_err (tag_no2 ?_), alt_eq_ok.2
      (.inr ⟨typeAlias_err (tag_no2 ?_), alt_eq_ok.2 (.inr ⟨typeDecl_err (tag_no2 ?_),
      alt_eq_ok.2 (.inl ok)⟩)⟩)⟩)⟩)⟩)⟩) <;> exact tag_cons_ne (by decide)
  | @port n as e w1 cs w2 g i c h1 h2 h3 h4 h5 h6 =>
    have e := port_not_module (t := cs ++ (w2 ++ '=' :: (g ++ (c ++ r)))) h1 h2
      (tokenEnd_ident (portArgs_tokenEnd h3 (spaces_tokenEnd h4)))
    have e' := port_not_type (t := g ++ (c ++ r)) h1 h2 h3 h4
    have ok := port_ok h1 h2 h3 h4 h5 h6 hr
    simp only [List.append_assoc, List.cons_append, List.nil_append] at e e' ok ⊢
    unfold statement
    refine alt_eq_ok.2 (.inr ⟨e, alt_eq_ok.2 (.inr ⟨effectModule_err (tag_no2 ?_),
      alt_eq_ok.2 (.inr ⟨module_err (tag_no2 ?_), alt_eq_ok.2 (.inr ⟨import_err (tag_no2 ?_), alt_eq_ok.2
      (.inr ⟨typeAlias_err (tag_no2 ?_), alt_eq_ok.2 (.inr ⟨typeDecl_err (tag_no2 ?_),
      alt_eq_ok.2 (.inr ⟨e', alt_eq_ok.2 (.inl ok)⟩)⟩)⟩)⟩)⟩)⟩)⟩) <;> exact tag_cons_ne (by decide)
  | function h => exact (notDecl_fn h r).fn (function_complete h (hr.exprStop 0))
  | @infix_ a n w1 d w2 h1 h2 h3 h4 h5 =>
    have e := infix_not_fn (a := a) h1 h2 h4 h5 hr
    have ok := infix_ok (a := a) h1 h2 h3 h4 h5 hr
    have nd : NotDecl (assocText a ++ (w1 ++ (d ++ (w2 ++ (n ++ r))))) := by
      refine notDecl_tags fun k hk => ?_
      simp only [List.mem_cons, List.not_mem_nil, or_false] at hk
      rcases hk with rfl | rfl | rfl | rfl | rfl <;> cases a <;> first | rfl | exact tag_cons_ne (by decide)
    simp only [List.append_assoc] at ok ⊢
    rw [nd.other e]
    exact alt_eq_ok.2 (.inl ok)
  | @block t h =>
    have h1 : function 0 (c!"{-" ++ t ++ c!"-}" ++ r) = .err := function_err_head (by decide) (by decide) (by decide)
    have h2 : NotDecl (c!"{-" ++ t ++ c!"-}" ++ r) := notDecl_head (by decide)
    have h3 : infixDeclaration (c!"{-" ++ t ++ c!"-}" ++ r) = .err := infix_err_head (by decide)
    have h4 : lineCommentStatement (c!"{-" ++ t ++ c!"-}" ++ r) = .err := by
      refine err_of cons_lineCommentStatement fun v u e => ?_
      obtain ⟨_, -, e, -⟩ := lineCommentStatement_iff.1 e
      cases (List.cons.inj e).1
    rw [h2.other h1]
    exact alt_eq_ok.2 (.inr ⟨h3, alt_eq_ok.2 (.inr ⟨h4, multiLineComment_iff'.2 ⟨t, rfl, rfl, h⟩⟩)⟩)

/-! ### Files -/

theorem stmt_notWhite {b : Bool} {sts : List Statement} {c : Str} (h : Stmts True b sts c) (hb : b = true) :
    Next (fun c => ¬ White c) c := by
  cases h with
  | last | sep => cases hb
  | line => exact next_cons.2 (by decide)
  | @stmt _ c sts r hc _ =>
    obtain ⟨x, t, e, hx⟩ := (stmtHead_stmt hc r).head
    rw [e]
    refine next_cons.2 ?_
    rcases hx with hx | rfl | rfl | rfl
    · rintro (rfl | rfl | rfl | rfl) <;> revert hx <;> decide
    all_goals decide

/-- What the parser does on a strict list of statements. -/
theorem stmts_run {b : Bool} {sts : List Statement} {c : Str} (h : Stmts True b sts c) :
    if b then ∃ x xs t w, sts = x :: xs ∧ statement c = .ok x t ∧ Run (preceded multispace statement) t xs w ∧ Whites w
    else ∃ w, Run (preceded multispace statement) c sts w ∧ Whites w := by
  induction h with
  | last hw => exact ⟨_, .nil _, hw⟩
  | @sep w sts c hw hne hnl hc ih =>
    simp only [if_true] at ih
    obtain ⟨x, xs, t, w', rfl, h1, h2, h3⟩ := ih
    simp only [Bool.false_eq_true, if_false]
    refine ⟨w', run_cons (cons_preceded' cons_multispace cons_statement) (r := t) ?_ h2, h3⟩
    exact preceded_eq_ok.2 ⟨w, c, multispace_iff.2 ⟨rfl, hne, hw, stmt_notWhite hc rfl⟩, h1⟩
  | @line t sts r ht hr _ ih =>
    simp only [Bool.false_eq_true, if_false] at ih
    obtain ⟨w, h1, h2⟩ := ih
    exact ⟨_, _, r, w, rfl, statement_line ht hr, h1, h2⟩
  | @stmt x c sts r hc hs ih =>
    simp only [Bool.false_eq_true, if_false] at ih
    obtain ⟨w, h1, h2⟩ := ih
    exact ⟨_, _, r, w, rfl, statement_complete hc (stmts_follow hs), h1, h2⟩

theorem statement_nil : statement [] = .err := rfl

theorem statement_white {x : Char} {t : Str} (h : White x) : statement (x :: t) = .err := by
  refine err_of cons_statement fun v u e => ?_
  rcases statement_sound e with ⟨_, -, e, -⟩ | ⟨c, e, hc⟩
  · have := (List.cons.inj e).1
    subst this
    revert h; decide
  · obtain ⟨y, t', e', hy⟩ := (stmtHead_stmt hc u).head
    rw [e'] at e
    have := (List.cons.inj e).1
    subst this
    rcases hy with hy | rfl | rfl | rfl
    · rcases h with rfl | rfl | rfl | rfl <;> revert hy <;> decide
    all_goals revert h; decide

theorem multispace_statement_err {w : Str} (h : Whites w) : preceded multispace statement w = .err := by
  rw [preceded_apply]
  rcases err_or_ok cons_multispace w with e | ⟨v, t, e, -⟩
  · rw [e]; rfl
  · rw [e, andThen_ok]
    obtain ⟨rfl, -, -, h1⟩ := multispace_iff.1 e
    cases t with
    | nil => rfl
    | cons x t => exact statement_white (h x (by simp))

theorem file_complete {sts : List Statement} {c : Str} (h : FileSrc True sts c) : file c = .ok sts [] := by
  obtain ⟨w, d, rfl, hw, hd⟩ := h
  have hrun := stmts_run hd
  simp only [if_true] at hrun
  obtain ⟨x, xs, t, w', rfl, h1, h2, h3⟩ := hrun
  unfold file statements
  refine terminated_eq_ok.2 ⟨[], (), ?_, rfl⟩
  refine delimited_eq_ok.2 ⟨w, d, w', w', multispace0_iff.2 ⟨rfl, hw, stmt_notWhite hd rfl⟩, ?_,
    multispace0_iff.2 ⟨by simp, h3, next_nil _⟩⟩
  rw [sepNonemptyList_multispace0]
  exact (sepNonemptyList_iff cons_multispace cons_statement).2
    ⟨x, xs, t, rfl, h1, h2, multispace_statement_err h3⟩

end ElmParser
