import Verif.Proofs.StmtFollow

/-! Every strict layout of a statement is read back by the parser. -/
namespace ElmParser
open Spec

variable {s r : Str}

theorem tag_ok (k t : Str) : tag k (k ++ t) = .ok k t := tag_eq_ok.2 ⟨rfl, rfl⟩

theorem optSpaces_ok {w : Str} (h : OptSpaces w) (hr : Next (· ≠ ' ') r) : ∃ o, opt spaces (w ++ r) = .ok o r := by
  cases w with
  | nil => exact ⟨none, opt_none (spaces_err.2 hr)⟩
  | cons x w => exact ⟨_, opt_eq_ok.2 (.inl ⟨_, spaces_ok ⟨by simp, h⟩ hr, rfl⟩)⟩

theorem optSpaceNl_ok {w : Str} (h : OptSpaceNl w) (hr : Next (fun c => c ≠ ' ' ∧ c ≠ '\n') r) :
    ∃ o, opt spacesAndNewlines (w ++ r) = .ok o r := by
  cases w with
  | nil =>
    refine ⟨none, opt_none ?_⟩
    rcases err_or_ok cons_spacesAndNewlines r with e | ⟨v, t, e, -⟩
    · exact e
    · obtain ⟨rfl, ⟨h1, h2⟩, -⟩ := spacesAndNewlines_iff.1 e
      cases v with
      | nil => exact absurd rfl h1
      | cons y v =>
        have h3 := next_cons.1 hr
        rcases h2 y (by simp) with rfl | rfl
        · exact absurd rfl h3.1
        · exact absurd rfl h3.2
  | cons x w =>
    exact ⟨_, opt_eq_ok.2 (.inl ⟨_, spacesAndNewlines_iff.2 ⟨rfl, ⟨by simp, h⟩, hr⟩, rfl⟩)⟩

/-! ### Exports -/

/-- What may follow an element of an export list. -/
def ExportEnd (r : Str) : Prop := Next (fun c => ¬ IdentChar c ∧ c ≠ '(') r

theorem upName_ok {n : Name} (h : UpName n) (hr : Next (fun c => ¬ IdentChar c) r) : upName (n ++ r) = .ok n r :=
  upName_iff.2 ⟨rfl, h, hr⟩

theorem upper_not {x : Char} (h : Upper x) : ¬ Lower x ∧ x ≠ '_' ∧ x ≠ '(' ∧ x ≠ '.' ∧ x ≠ ' ' ∧ x ≠ '\n' ∧ x ≠ '-' := by
  refine ⟨?_, ?_, ?_, ?_, ?_, ?_, ?_⟩
  · unfold Upper at h; unfold Lower; omega
  all_goals rintro rfl; revert h; decide

theorem functionExport_ok {n m : Str} (h : FnName n m) (hr : ExportEnd r) :
    functionExport (m ++ r) = .ok (.FunctionExport n) r := by
  have h1 := functionNameOrOp_ok h (r := r) (Next.imp hr fun _ h => h.1)
  unfold functionExport
  refine pmap_eq_ok.2 ⟨n, ?_, rfl⟩
  unfold functionNameOrOp at h1
  rcases alt_eq_ok.1 h1 with h1 | ⟨h2, h1⟩
  · exact alt_eq_ok.2 (.inl (pmap_eq_ok.2 ⟨n, h1, rfl⟩))
  · refine alt_eq_ok.2 (.inr ⟨?_, h1⟩)
    unfold functionName
    rw [pmap_apply, h2]
    rfl

theorem functionExport_err {x : Char} {t : Str} (h : ¬ Lower x) (h1 : x ≠ '_') (h2 : x ≠ '(') :
    functionExport (x :: t) = .err := by
  unfold functionExport functionName
  rw [pmap_apply, alt_apply, pmap_apply, loName_err_head h h1, delimited_apply, char_cons_ne _ h2]
  rfl

theorem commaNames_run {ns : List Name} (h : ∀ n ∈ ns, UpName n) (t : Str) :
    Run (preceded (tag c!", ") (pmap upName ExportSet.FunctionExport))
      ((ns.map fun m => c!", " ++ m).flatten ++ ')' :: t) (ns.map ExportSet.FunctionExport) (')' :: t) := by
  induction ns with
  | nil => exact .nil _
  | cons n ns ih =>
    have ih := ih fun m hm => h m (List.mem_cons_of_mem _ hm)
    have hn : Next (fun c => ¬ IdentChar c) ((ns.map fun m => c!", " ++ m).flatten ++ ')' :: t) := by
      cases ns <;> exact next_cons.2 (by decide)
    refine run_cons (cons_preceded' (fun k => cons_tag k _ _) (fun k => cons_pmap (cons_upName k)))
      (r := (ns.map fun m => c!", " ++ m).flatten ++ ')' :: t) ?_ ih
    refine preceded_eq_ok.2 ⟨c!", ", n ++ ((ns.map fun m => c!", " ++ m).flatten ++ ')' :: t), ?_, ?_⟩
    · refine tag_eq_ok.2 ⟨rfl, by simp⟩
    · exact pmap_eq_ok.2 ⟨n, upName_ok (h n (by simp)) hn, rfl⟩

theorem constructorExports_ok {o : Option ExportSet} {c : Str} (h : ConsText o c) (hr : ExportEnd r) :
    constructorExports (c ++ r) = .ok o r := by
  unfold constructorExports
  cases h with
  | none =>
    refine opt_none ?_
    rw [List.nil_append, delimited_apply]
    cases r with
    | nil => rfl
    | cons x r => rw [char_cons_ne _ (next_cons.1 hr).2]; rfl
  | all =>
    refine opt_eq_ok.2 (.inl ⟨_, delimited_eq_ok.2 ⟨'(', c!"..)" ++ r, c!")" ++ r, ')', char_cons .., ?_, char_cons ..⟩, rfl⟩)
    exact alt_eq_ok.2 (.inl (allExport_iff.2 ⟨rfl, rfl⟩))
  | @some ns hne hns =>
    cases ns with
    | nil => exact absurd rfl hne
    | cons n ns =>
      have hns' : ∀ m ∈ ns, UpName m := fun m hm => hns m (List.mem_cons_of_mem _ hm)
      refine opt_eq_ok.2 (.inl ⟨_, delimited_eq_ok.2 ⟨'(', commaNames (n :: ns) ++ c!")" ++ r, c!")" ++ r, ')', ?_, ?_, char_cons ..⟩, rfl⟩)
      · simp
      · refine alt_eq_ok.2 (.inr ⟨?_, ?_⟩)
        · obtain ⟨x, t, rfl, hx, -⟩ := hns n (by simp)
          unfold allExport
          rw [commaNames_cons, pmap_apply]
          simp only [List.cons_append]
          rw [tag_cons_ne (upper_not hx).2.2.2.1]
          rfl
        · unfold constructorSubsetExports
          refine pmap_eq_ok.2 ⟨(n :: ns).map .FunctionExport, ?_, rfl⟩
          have hn : Next (fun c => ¬ IdentChar c) ((ns.map fun m => c!", " ++ m).flatten ++ ')' :: r) := by
            cases ns <;> exact next_cons.2 (by decide)
          refine (sepNonemptyList_iff (fun k => cons_tag k _ _) (fun k => cons_pmap (cons_upName k))).2
            ⟨.FunctionExport n, ns.map .FunctionExport, (ns.map fun m => c!", " ++ m).flatten ++ ')' :: r,
              rfl, ?_, commaNames_run hns' r, ?_⟩
          · rw [commaNames_cons]
            simp only [List.append_assoc, List.cons_append, List.nil_append]
            exact pmap_eq_ok.2 ⟨n, upName_ok (hns n (by simp)) hn, rfl⟩
          · have h2 : tag c!", " (c!")" ++ r) = .err := tag_cons_ne (by decide)
            rw [preceded_apply, h2]
            rfl

theorem exportItem_ok {e : ExportSet} {c : Str} (h : ExportText e c) (hr : ExportEnd r) :
    (functionExport </> typeExport) (c ++ r) = .ok e r := by
  cases h with
  | function h => exact alt_eq_ok.2 (.inl (functionExport_ok h hr))
  | @type_ n o c hn hc =>
    refine alt_eq_ok.2 (.inr ⟨?_, ?_⟩)
    · obtain ⟨x, t, rfl, hx, -⟩ := hn
      exact functionExport_err (upper_not hx).1 (upper_not hx).2.1 (upper_not hx).2.2.1
    · unfold typeExport
      simp only [bind_eq_ok, pure_eq_ok]
      have : Next (fun c => ¬ IdentChar c) (c ++ r) := by
        cases hc with
        | none => exact Next.imp hr fun _ h => h.1
        | all => exact next_cons.2 (by decide)
        | some => exact next_cons.2 (by decide)
      refine ⟨n, c ++ r, ?_, o, r, constructorExports_ok hc hr, rfl, rfl⟩
      rw [List.append_assoc]
      exact upName_ok hn this

/-- The separator of export lists. -/
abbrev exportSep : Parser Char := delimited (opt spacesAndNewlines) (char ',') (opt spacesAndNewlines)

theorem cons_exportSep (k : Nat) : Cons k exportSep :=
  delimited_cons (good_opt (cons_spacesAndNewlines k).good) (cons_char k _) (good_opt (cons_spacesAndNewlines k).good)

theorem cons_exportItem (k : Nat) : Cons k (functionExport </> typeExport) :=
  cons_alt (cons_functionExport k) (cons_typeExport k)

theorem optSpaceNl_next {P : Char → Prop} {w : Str} (h : OptSpaceNl w) (h1 : P ' ') (h2 : P '\n') (hr : Next P r) :
    Next P (w ++ r) := by
  cases w with
  | nil => exact hr
  | cons x w => rcases h x (by simp) with rfl | rfl <;> exact next_cons.2 (by assumption)

theorem exportEnd_gap {ind : Nat} {ir : IR} {g : Str} (h : OptGapTxt ind ir g) (hr : ExportEnd r) : ExportEnd (g ++ r) := by
  rcases h with rfl | ⟨i, h⟩
  · exact hr
  · obtain ⟨x, t, rfl, hx⟩ := h.cons
    rcases hx with rfl | rfl | ⟨rfl, -⟩ <;> exact next_cons.2 (by decide)

theorem exportItems_end {es : List ExportSet} {c : Str} (h : ExportItems es c) (hr : ExportEnd r) : ExportEnd (c ++ r) := by
  cases h with
  | nil => exact hr
  | cons h1 h2 h3 h4 =>
    simp only [List.append_assoc]
    exact optSpaceNl_next h1 (by decide) (by decide) (next_cons.2 (by decide))

theorem exportText_head {e : ExportSet} {c : Str} (h : ExportText e c) :
    ∃ x t, c = x :: t ∧ (x = '(' ∨ Lower x ∨ x = '_' ∨ Upper x) := by
  cases h with
  | function h =>
    obtain ⟨x, t, rfl, h⟩ := fnName_head h
    exact ⟨x, t, rfl, by grind⟩
  | type_ h _ =>
    obtain ⟨x, t, rfl, h, -⟩ := h
    exact ⟨x, _, rfl, by grind⟩

theorem exportText_not {e : ExportSet} {c : Str} (h : ExportText e c) :
    ∃ x t, c = x :: t ∧ x ≠ ' ' ∧ x ≠ '\n' ∧ x ≠ '-' ∧ x ≠ '.' := by
  obtain ⟨x, t, hc, h'⟩ := exportText_head h
  refine ⟨x, t, hc, ?_⟩
  clear h
  rcases h' with rfl | h | rfl | h
  · decide
  · refine ⟨?_, ?_, ?_, ?_⟩ <;> rintro rfl <;> revert h <;> decide
  · decide
  · refine ⟨?_, ?_, ?_, ?_⟩ <;> rintro rfl <;> revert h <;> decide

theorem exportItems_run {es : List ExportSet} {c : Str} (h : ExportItems es c) (hr : ExportEnd r) :
    Run (preceded exportSep (functionExport </> typeExport)) (c ++ r) es r := by
  induction h with
  | nil => exact .nil _
  | @cons e es w1 w2 c cs h1 h2 h3 h4 ih =>
    refine run_cons (cons_preceded' cons_exportSep cons_exportItem) (r := cs ++ r) ?_ ih
    obtain ⟨o1, e1⟩ := optSpaceNl_ok h1 (r := ',' :: (w2 ++ (c ++ (cs ++ r)))) (next_cons.2 (by decide))
    have hh : Next (fun c => c ≠ ' ' ∧ c ≠ '\n') (c ++ (cs ++ r)) := by
      obtain ⟨x, t, rfl, h⟩ := exportText_not h3
      exact next_cons.2 ⟨h.1, h.2.1⟩
    obtain ⟨o2, e2⟩ := optSpaceNl_ok h2 hh
    simp only [List.append_assoc, List.cons_append, List.nil_append]
    refine preceded_eq_ok.2 ⟨',', c ++ (cs ++ r), ?_, exportItem_ok h3 (exportItems_end h4 hr)⟩
    exact delimited_eq_ok.2 ⟨_, _, _, _, e1, char_cons .., e2⟩

theorem exportSep_err {ind : Nat} {ir : IR} {g : Str} (h : OptGapTxt ind ir g) : exportSep (g ++ ')' :: r) = .err := by
  have key : ∀ w t x, OptSpaceNl w → x ≠ ' ' → x ≠ '\n' → x ≠ ',' → exportSep (w ++ x :: t) = .err := by
    intro w t x hw h1 h2 h3
    obtain ⟨o, e⟩ := optSpaceNl_ok hw (r := x :: t) (next_cons.2 ⟨h1, h2⟩)
    unfold exportSep
    rw [delimited_apply, e, andThen_ok, char_cons_ne _ h3]
    rfl
  rcases h with rfl | ⟨i, ls, n, rfl, -, -, -⟩
  · exact key [] r ')' (by simp [OptSpaceNl]) (by decide) (by decide) (by decide)
  · have hsp : ∀ n, OptSpaceNl (sp n) := fun n c hc => .inl (mem_sp hc)
    have main : ∀ ls, ∃ w x t, gapText ls ⟨n, none⟩ ++ ')' :: r = w ++ x :: t ∧ OptSpaceNl w ∧ (x = ')' ∨ x = '-') := by
      intro ls
      induction ls with
      | nil => exact ⟨sp n, ')', r, by simp [gapText, Line.text, commentText], hsp n, .inl rfl⟩
      | cons l ls ih =>
        obtain ⟨m, o⟩ := l
        cases o with
        | none =>
          obtain ⟨w, x, t, e, hw, hx⟩ := ih
          refine ⟨sp m ++ '\n' :: w, x, t, by simp [gapText, Line.text, commentText, e], ?_, hx⟩
          intro c hc
          rcases List.mem_append.1 hc with hc | hc
          · exact hsp m c hc
          · rcases List.mem_cons.1 hc with rfl | hc
            · exact .inr rfl
            · exact hw c hc
        | some u =>
          exact ⟨sp m, '-', _, by simp only [gapText, Line.text, commentText, List.append_assoc, List.cons_append]; rfl,
            hsp m, .inr rfl⟩
    obtain ⟨w, x, t, e, hw, hx⟩ := main ls
    rw [e]
    rcases hx with rfl | rfl <;> exact key _ _ _ hw (by decide) (by decide) (by decide)

theorem exports_complete {e : ExportSet} {c : Str} (h : ExportsText e c) (r : Str) : exports (c ++ r) = .ok e r := by
  unfold exports
  cases h with
  | @all g1 g2 h1 h2 =>
    have : NoGap (c!".." ++ g2 ++ ')' :: r) := noGap_of_ne (by decide)
    refine bracket_ok h1 h2 this (noGap_of_ne (by decide)) ?_
    rw [List.append_assoc]
    exact alt_eq_ok.2 (.inl (allExport_iff.2 ⟨rfl, rfl⟩))
  | @some e es g1 c cs g2 h1 h2 h3 h4 =>
    have h5 : NoGap ((c ++ cs) ++ g2 ++ ')' :: r) := by
      obtain ⟨x, t, rfl, h⟩ := exportText_not h2
      exact noGap_of_ne ⟨h.1, h.2.1, h.2.2.1⟩
    have he : ExportEnd (g2 ++ ')' :: r) := exportEnd_gap h4 (next_cons.2 (by decide))
    have := bracket_ok (o := '(') (cl := ')') (r := r) (v := ExportSet.SubsetExport (e :: es)) (c := c ++ cs)
      (p := allExport </> subsetExport) h1 h4 h5 (noGap_of_ne (by decide)) ?_
    · simpa using this
    · refine alt_eq_ok.2 (.inr ⟨?_, ?_⟩)
      · obtain ⟨x, t, rfl, h⟩ := exportText_not h2
        unfold allExport
        rw [pmap_apply]
        simp only [List.cons_append]
        rw [tag_cons_ne h.2.2.2]
        rfl
      · unfold subsetExport
        refine pmap_eq_ok.2 ⟨e :: es, ?_, rfl⟩
        refine (sepNonemptyList_iff cons_exportSep cons_exportItem).2
          ⟨e, es, cs ++ (g2 ++ ')' :: r), rfl, ?_, exportItems_run h3 he, ?_⟩
        · simp only [List.append_assoc]
          exact exportItem_ok h2 (exportItems_end h3 he)
        · rw [preceded_apply]
          rw [exportSep_err h4]
          rfl

/-! ### Module declarations and imports -/

theorem dotted_noGap {ns : List Name} (h : ns ≠ []) (h' : ∀ n ∈ ns, UpName n) : NoGap (dotted ns ++ r) := by
  obtain ⟨x, t, e, hx⟩ := dotted_head h h'
  rw [e]
  exact noGap_of_ne ⟨(upper_not hx).2.2.2.2.1, (upper_not hx).2.2.2.2.2.1, (upper_not hx).2.2.2.2.2.2⟩

theorem exports_noGap {e : ExportSet} {c : Str} (h : ExportsText e c) : NoGap (c ++ r) := by
  cases h <;> exact noGap_of_ne (by decide)

theorem word_noGap {x : Char} {t : Str} (h : Lower x) : NoGap (x :: t) := by
  refine noGap_of_ne ⟨?_, ?_, ?_⟩ <;> rintro rfl <;> revert h <;> decide

theorem moduleName_ok {ns : List Name} (h : ns ≠ []) (h' : ∀ n ∈ ns, UpName n) (hr : TokenEnd r) :
    moduleName (dotted ns ++ r) = .ok ns r := moduleName_complete h h' hr

theorem portModule_ok {ns : List Name} {e : ExportSet} {g1 g2 g3 g4 c : Str} {i1 i2 i3 i4 : Nat}
    (h1 : GapTxt 0 .GT i1 g1) (h2 : GapTxt 0 .GT i2 g2) (hns : ns ≠ []) (hup : ∀ n ∈ ns, UpName n)
    (h3 : GapTxt 0 .GT i3 g3) (h4 : GapTxt 0 .GT i4 g4) (hc : ExportsText e c) (r : Str) :
    portModuleDeclaration (c!"port" ++ g1 ++ c!"module" ++ g2 ++ dotted ns ++ g3 ++ c!"exposing" ++ g4 ++ c ++ r) =
      .ok (.PortModuleDeclaration ns e) r := by
  unfold portModuleDeclaration
  simp only [bind_eq_ok, pure_eq_ok, List.append_assoc]
  exact ⟨_, _, tag_ok _ _, _, _, h1.gap (word_noGap (by decide)), _, _, tag_ok _ _, _, _,
    h2.gap (dotted_noGap hns hup), _, _, moduleName_ok hns hup (tokenEnd_gap h3), _, _,
    h3.gap (word_noGap (by decide)), _, _, tag_ok _ _, _, _, h4.gap (exports_noGap hc), _, _,
    exports_complete hc r, rfl, rfl⟩

theorem module_ok {ns : List Name} {e : ExportSet} {g2 g3 g4 c : Str} {i2 i3 i4 : Nat}
    (h2 : GapTxt 0 .GT i2 g2) (hns : ns ≠ []) (hup : ∀ n ∈ ns, UpName n)
    (h3 : GapTxt 0 .GT i3 g3) (h4 : GapTxt 0 .GT i4 g4) (hc : ExportsText e c) (r : Str) :
    moduleDeclaration (c!"module" ++ g2 ++ dotted ns ++ g3 ++ c!"exposing" ++ g4 ++ c ++ r) =
      .ok (.ModuleDeclaration ns e) r := by
  unfold moduleDeclaration
  simp only [bind_eq_ok, pure_eq_ok, List.append_assoc]
  exact ⟨_, _, tag_ok _ _, _, _,
    h2.gap (dotted_noGap hns hup), _, _, moduleName_ok hns hup (tokenEnd_gap h3), _, _,
    h3.gap (word_noGap (by decide)), _, _, tag_ok _ _, _, _, h4.gap (exports_noGap hc), _, _,
    exports_complete hc r, rfl, rfl⟩

theorem loName_notSpace {n : Name} (h : LoName n) (r : Str) : Next (· ≠ ' ') (n ++ r) := by
  obtain ⟨x, t, rfl, hx⟩ := loName_head h
  refine next_cons.2 ?_
  rintro rfl
  revert hx; decide

theorem upName_notSpace {n : Name} (h : UpName n) (r : Str) : Next (· ≠ ' ') (n ++ r) := by
  obtain ⟨x, t, rfl, hx, -⟩ := h
  exact next_cons.2 (upper_not hx).2.2.2.2.1

theorem optSpaces_next {P : Char → Prop} {w : Str} (h : OptSpaces w) (h1 : P ' ') (hr : Next P r) :
    Next P (w ++ r) := by
  cases w with
  | nil => exact hr
  | cons x w => obtain rfl := h x (by simp); exact next_cons.2 (by assumption)

theorem effectField_ok {f : Name × Name} {c : Str} (h : EffectText f c) (hr : Next (fun c => ¬ IdentChar c) r) :
    effectField (c ++ r) = .ok f r := by
  cases h with
  | @mk n u w1 w2 hn h1 h2 hu =>
    unfold effectField
    simp only [bind_eq_ok, pure_eq_ok, List.append_assoc, List.cons_append, List.nil_append]
    obtain ⟨o1, e1⟩ := optSpaces_ok h1 (r := '=' :: (w2 ++ (u ++ r))) (next_cons.2 (by decide))
    obtain ⟨o2, e2⟩ := optSpaces_ok h2 (r := u ++ r) (upName_notSpace hu r)
    exact ⟨_, _, loName_complete hn (optSpaces_next h1 (by decide) (next_cons.2 (by decide))), _, _, e1, _, _,
      char_cons .., _, _, e2, _, _, upName_ok hu hr, rfl, rfl⟩

theorem cons_effectField (k : Nat) : Cons k effectField :=
  match k with
  | 0 => fun s hs => by omega
  | k + 1 => cons_bind (cons_loName _) fun _ => good_bind (good_opt (cons_spaces k).good) fun _ =>
    good_bind (cons_char k _).good fun _ => good_bind (good_opt (cons_spaces k).good) fun _ =>
    good_bind (cons_upName k).good fun _ => good_pure _ _

theorem effectItems_run {fs : List (Name × Name)} {c : Str} (h : EffectItems fs c) (t : Str) :
    Next (fun c => ¬ IdentChar c) (c ++ '}' :: t) ∧
      Run (preceded (tag c!", ") effectField) (c ++ '}' :: t) fs ('}' :: t) := by
  induction h with
  | nil => exact ⟨next_cons.2 (by decide), .nil _⟩
  | @cons f fs c cs h1 _ ih =>
    refine ⟨next_cons.2 (by decide), run_cons (cons_preceded' (fun k => cons_tag k _ _) cons_effectField)
      (r := cs ++ '}' :: t) ?_ ih.2⟩
    simp only [List.append_assoc]
    exact preceded_eq_ok.2 ⟨_, _, tag_ok _ _, effectField_ok h1 ih.1⟩

theorem effects_ok {fs : List (Name × Name)} {c : Str} (h : EffectsText fs c) (t : Str) :
    sepList (tag c!", ") effectField (c ++ '}' :: t) = .ok fs ('}' :: t) := by
  refine (sepList_iff (fun k => cons_tag k _ _) cons_effectField).2 ?_
  cases h with
  | nil =>
    refine .inl ⟨rfl, rfl, ?_⟩
    unfold effectField
    rw [List.nil_append, bind_apply, loName_err_head (by decide) (by decide)]
    rfl
  | @cons f fs c cs h1 h2 =>
    obtain ⟨h3, h4⟩ := effectItems_run h2 t
    refine .inr ⟨f, fs, cs ++ '}' :: t, rfl, ?_, h4, ?_⟩
    · rw [List.append_assoc]
      exact effectField_ok h1 h3
    · have : tag c!", " ('}' :: t) = .err := tag_cons_ne (by decide)
      rw [preceded_apply, this]
      rfl

theorem effectModule_ok {ns : List Name} {fs : List (Name × Name)} {e : ExportSet} {g1 g2 g3 g4 g5 g6 d c : Str}
    {i1 i2 i3 i4 i5 i6 : Nat}
    (h1 : GapTxt 0 .GT i1 g1) (h2 : GapTxt 0 .GT i2 g2) (hns : ns ≠ []) (hup : ∀ n ∈ ns, UpName n)
    (h3 : GapTxt 0 .GT i3 g3) (h4 : GapTxt 0 .GT i4 g4) (hd : EffectsText fs d) (h5 : GapTxt 0 .GT i5 g5)
    (h6 : GapTxt 0 .GT i6 g6) (hc : ExportsText e c) (r : Str) :
    effectModuleDeclaration (c!"effect" ++ g1 ++ c!"module" ++ g2 ++ dotted ns ++ g3 ++ c!"where" ++ g4 ++ c!"{" ++ d ++
      c!"}" ++ g5 ++ c!"exposing" ++ g6 ++ c ++ r) = .ok (.EffectModuleDeclaration ns fs e) r := by
  unfold effectModuleDeclaration
  simp only [bind_eq_ok, pure_eq_ok, List.append_assoc]
  have hd' : delimited (char '{') (sepList (tag c!", ") effectField) (char '}')
      (c!"{" ++ (d ++ (c!"}" ++ (g5 ++ (c!"exposing" ++ (g6 ++ (c ++ r))))))) =
      .ok fs (g5 ++ (c!"exposing" ++ (g6 ++ (c ++ r)))) :=
    delimited_eq_ok.2 ⟨_, _, _, _, char_cons .., effects_ok hd _, char_cons ..⟩
  exact ⟨_, _, tag_ok _ _, _, _, h1.gap (word_noGap (by decide)), _, _, tag_ok _ _, _, _,
    h2.gap (dotted_noGap hns hup), _, _, moduleName_ok hns hup (tokenEnd_gap h3), _, _,
    h3.gap (word_noGap (by decide)), _, _, tag_ok _ _, _, _, h4.gap (noGap_of_ne (by decide)), _, _, hd', _, _,
    h5.gap (word_noGap (by decide)), _, _, tag_ok _ _, _, _, h6.gap (exports_noGap hc), _, _,
    exports_complete hc r, rfl, rfl⟩

theorem spaces_tokenEnd {w : Str} (h : SpacesTxt w) : TokenEnd (w ++ r) := by
  obtain ⟨h1, h2⟩ := h
  cases w with
  | nil => exact absurd rfl h1
  | cons x w => obtain rfl := h2 x (by simp); exact next_cons.2 (by decide)

theorem dotted_notSpace {ns : List Name} (h : ns ≠ []) (h' : ∀ n ∈ ns, UpName n) : Next (· ≠ ' ') (dotted ns ++ r) := by
  obtain ⟨x, t, e, hx⟩ := dotted_head h h'
  rw [e]
  exact next_cons.2 (upper_not hx).2.2.2.2.1

/-- An `as` or `exposing` clause is not there when the statement ends. -/
theorem noClause {α : Type} {k : Str} {x : Char} {k' : Str} {p : Parser α} (hk : k = x :: k') (hx : Lower x) (h : StmtStop r) :
    preceded (delimited spaces (tag k) spaces) p r = .err := by
  subst hk
  have h1 : preceded spaces (tag (x :: k')) r = .err := by
    refine h.noWord rfl fun y t hy => tag_cons_ne ?_
    rintro rfl
    rcases hy with hy | rfl
    · rcases hy with rfl | rfl | rfl | rfl <;> revert hx <;> decide
    · revert hx; decide
  rw [preceded_apply] at h1
  rw [preceded_apply, delimited_apply]
  rcases err_or_ok cons_spaces r with e | ⟨w, t, e, -⟩
  · rw [e]; rfl
  · rw [e, andThen_ok] at h1 ⊢
    rw [h1]; rfl

theorem exposing_ok {o : Option ExportSet} {d : Str} (h : ExposingText o d) (hr : Follow r) :
    opt (preceded (delimited spaces (tag c!"exposing") spaces) exports) (d ++ r) = .ok o r := by
  cases h with
  | none => exact opt_none (noClause rfl (by decide) hr.stop)
  | @some e w1 w2 c h1 h2 hc =>
    simp only [List.append_assoc]
    have h3 : Next (· ≠ ' ') (c!"exposing" ++ (w2 ++ (c ++ r))) := next_cons.2 (by decide)
    exact opt_eq_ok.2 (.inl ⟨_, preceded_eq_ok.2 ⟨_, _, delimited_eq_ok.2 ⟨_, _, _, _, spaces_ok h1 h3, tag_ok _ _,
      spaces_ok h2 (by cases hc <;> exact next_cons.2 (by decide))⟩, exports_complete hc r⟩, rfl⟩)

theorem alias_ok {o : Option Name} {d : Str} (h : AliasText o d) (hr : TokenEnd r)
    (hr' : preceded (delimited spaces (tag c!"as") spaces) upName r = .err) :
    opt (preceded (delimited spaces (tag c!"as") spaces) upName) (d ++ r) = .ok o r := by
  cases h with
  | none => exact opt_none hr'
  | @some n w1 w2 h1 h2 hn =>
    simp only [List.append_assoc]
    have h3 : Next (· ≠ ' ') (c!"as" ++ (w2 ++ (n ++ r))) := next_cons.2 (by decide)
    exact opt_eq_ok.2 (.inl ⟨_, preceded_eq_ok.2 ⟨_, _, delimited_eq_ok.2 ⟨_, _, _, _, spaces_ok h1 h3, tag_ok _ _,
      spaces_ok h2 (upName_notSpace hn _)⟩, upName_ok hn (tokenEnd_ident hr)⟩, rfl⟩)

theorem import_ok {ns : List Name} {a : Option Name} {e : Option ExportSet} {w c d : Str} (hw : SpacesTxt w)
    (hns : ns ≠ []) (hup : ∀ n ∈ ns, UpName n) (hc : AliasText a c) (hd : ExposingText e d) (hr : Follow r) :
    importStatement (c!"import" ++ w ++ dotted ns ++ c ++ d ++ r) = .ok (.ImportStatement ns a e) r := by
  have hte : TokenEnd (d ++ r) := by
    cases hd with
    | none => exact hr.tokenEnd
    | some h1 _ _ => simp only [List.append_assoc]; exact spaces_tokenEnd h1
  have hte' : TokenEnd (c ++ (d ++ r)) := by
    cases hc with
    | none => exact hte
    | some h1 _ _ => simp only [List.append_assoc]; exact spaces_tokenEnd h1
  have hno : preceded (delimited spaces (tag c!"as") spaces) upName (d ++ r) = .err := by
    cases hd with
    | none => exact noClause rfl (by decide) hr.stop
    | @some e w1 w2 c h1 _ _ =>
      simp only [List.append_assoc]
      have h2 : tag c!"as" (c!"exposing" ++ (w2 ++ (c ++ r))) = .err := tag_cons_ne (by decide)
      have h3 : Next (· ≠ ' ') (c!"exposing" ++ (w2 ++ (c ++ r))) := next_cons.2 (by decide)
      rw [preceded_apply, delimited_apply, spaces_ok h1 h3, andThen_ok, h2]
      rfl
  unfold importStatement
  simp only [bind_eq_ok, pure_eq_ok, List.append_assoc]
  exact ⟨_, _, tag_ok _ _, _, _, spaces_ok hw (dotted_notSpace hns hup), _, _, moduleName_ok hns hup hte', _, _,
    alias_ok hc hte hno, _, _, exposing_ok hd hr, rfl, rfl⟩

/-! ### Types and ports -/

theorem spacesTxt_gap {w : Str} (h : SpacesTxt w) (ind : Nat) (ir : IR) : GapTxt ind ir ind w := by
  refine ⟨[], w.length, ?_, h.1, by simp, .inl ⟨rfl, rfl⟩⟩
  have : w = sp w.length := List.eq_replicate_iff.2 ⟨rfl, h.2⟩
  simpa [gapText, Line.text, commentText] using this

theorem ty_notSpace {ind : Nat} {k : TyCat} {c : Str} (h : TySrc ind k c) (hk : headed k) :
    Next (· ≠ ' ') (c ++ r) := Next.imp (ty_head_noGap (r := r) h hk).1 fun _ h => h.1

theorem typeAlias_ok {t u : Ty} {w1 w2 w3 g c d : Str} {i : Nat} (h1 : SpacesTxt w1) (h2 : SpacesTxt w2)
    (hc : TySrc 0 (.ty t) c) (h3 : SpacesTxt w3) (hg : GapTxt 1 .GTE i g) (hd : TySrc 1 (.ann u) d) (hr : Follow r) :
    typeAliasDeclaration (c!"type" ++ w1 ++ c!"alias" ++ w2 ++ c ++ w3 ++ c!"=" ++ g ++ d ++ r) =
      .ok (.TypeAliasDeclaration t u) r := by
  unfold typeAliasDeclaration
  simp only [bind_eq_ok, pure_eq_ok, List.append_assoc, List.cons_append, List.nil_append]
  exact ⟨_, _, tag_ok _ _, _, _, spaces_ok h1 (next_cons.2 (by decide)), _, _, tag_ok _ _, _, _,
    spaces_ok h2 (ty_notSpace hc trivial), _, _,
    type_complete hc (tyStop_closer (.inr ⟨_, spacesTxt_gap h3 0 .GTE⟩) (by simp)), _, _,
    spaces_ok h3 (next_cons.2 (by decide)), _, _, char_cons .., _, _, hg.gap (ty_head_noGap hd trivial), _, _,
    typeAnnotation_complete hd (hr.tyStop 1), rfl, rfl⟩

theorem typeConstructor_ok {ind : Nat} {ns : List Name} {ts : List Ty} {c : Str}
    (h : TySrc ind (.ty (.TypeConstructor ns ts)) c) (hr : ArgEnd ind r) :
    typeConstructor ind (c ++ r) = .ok (.TypeConstructor ns ts) r := by
  cases h with
  | tyAtom h => cases h
  | con h1 h2 h3 =>
    obtain ⟨h4, h5⟩ := tySrc_complete h3 r hr
    unfold typeConstructor typeConstructorF
    rw [bind_apply, List.append_assoc, moduleName_complete h1 h2 h4, andThen_ok, bind_apply,
      many0_ok_of_run h5 hr.arg]
    rfl

/-- The separator between constructors. -/
abbrev barSep (ind : Nat) : Parser Char := delimited (gap ind .GTE) (char '|') spaces

theorem cons_barSep (ind k : Nat) : Cons k (barSep ind) := by
  cases k with
  | zero => intro s hs; omega
  | succ k => exact cons_delimited (cons_gap _ _ _) (cons_char k _).good (cons_spaces k).good

theorem constructorItems_run {ind : Nat} {us : List Ty} {c : Str} (h : ConstructorItems ind us c) (hr : ArgEnd ind r) :
    ArgEnd ind (c ++ r) ∧ Run (preceded (barSep ind) (typeConstructor ind)) (c ++ r) us r := by
  induction h with
  | nil => exact ⟨hr, .nil _⟩
  | @cons ns ts us g i w c cs hg hw hc _ ih =>
    refine ⟨?_, ?_⟩
    · simp only [List.append_assoc, List.cons_append, List.nil_append]
      exact (tyStop_closer (.inr ⟨_, hg⟩) (by simp)).argEnd
    · refine run_cons (cons_preceded' (cons_barSep ind) fun k => cons_typeConstructor k ind) (r := cs ++ r) ?_ ih.2
      simp only [List.append_assoc, List.cons_append, List.nil_append]
      exact preceded_eq_ok.2 ⟨_, _, delimited_eq_ok.2 ⟨_, _, _, _, hg.gap (noGap_of_ne (by decide)), char_cons ..,
        spaces_ok hw (ty_notSpace hc trivial)⟩, typeConstructor_ok hc ih.1⟩

theorem StmtStop.noBar {ind : Nat} (h : StmtStop r) : barSep ind r = .err := by
  unfold barSep
  rw [delimited_apply]
  rcases h with h | ⟨ls, last, r', hg, h⟩
  · rw [gap_none (tabCr_noGap h)]; rfl
  · rcases err_or_ok (fun k => cons_gap k ind .GTE) r with e | ⟨j, t, e, -⟩
    · rw [e]; rfl
    · obtain ⟨rfl, -⟩ := (gap_of_gap hg ind .GTE).1 e
      have : char '|' t = .err := by
        rcases h with h | ⟨-, -, h⟩
        · cases t with
          | nil => rfl
          | cons x t => rcases next_cons.1 h with rfl | rfl <;> exact char_cons_ne _ (by decide)
        · obtain ⟨⟨x, u, rfl, h⟩, -⟩ := h
          refine char_cons_ne _ ?_
          rintro rfl
          revert h; decide
      rw [e, andThen_ok, this]
      rfl

theorem typeDecl_ok {t : Ty} {ns : List Name} {ts us : List Ty} {w g1 g2 c d ds : Str} {i i2 : Nat}
    (hw : SpacesTxt w) (hc : TySrc 0 (.ty t) c) (h1 : GapTxt 0 .GT i g1) (h2 : GapTxt i .GTE i2 g2)
    (hd : TySrc i (.ty (.TypeConstructor ns ts)) d) (hds : ConstructorItems i us ds) (hr : Follow r) :
    typeDeclaration 0 (c!"type" ++ w ++ c ++ g1 ++ c!"=" ++ g2 ++ d ++ ds ++ r) =
      .ok (.TypeDeclaration t (.TypeConstructor ns ts :: us)) r := by
  obtain ⟨h3, h4⟩ := constructorItems_run hds (hr.tyStop i).argEnd
  have hl : sepNonemptyList (barSep i) (typeConstructor i) (d ++ (ds ++ r)) = .ok (.TypeConstructor ns ts :: us) r := by
    refine (sepNonemptyList_iff (cons_barSep i) fun k => cons_typeConstructor k i).2
      ⟨_, _, ds ++ r, rfl, typeConstructor_ok hd h3, h4, ?_⟩
    rw [preceded_apply, hr.stop.noBar]
    rfl
  unfold typeDeclaration
  simp only [bind_eq_ok, pure_eq_ok, List.append_assoc, List.cons_append, List.nil_append]
  exact ⟨_, _, tag_ok _ _, _, _, spaces_ok hw (ty_notSpace hc trivial), _, _,
    type_complete hc (tyStop_closer (.inr ⟨_, h1⟩) (by simp)), _, _, h1.gap (noGap_of_ne (by decide)), _, _,
    char_cons .., _, _, h2.gap (ty_head_noGap hd trivial), _, _, hl, rfl, rfl⟩

theorem portType_ok {n : Name} {t : Ty} {w1 w2 g c : Str} {i : Nat} (h1 : SpacesTxt w1) (hn : LoName n)
    (h2 : SpacesTxt w2) (hg : GapTxt 0 .GT i g) (hc : TySrc i (.ann t) c) (hr : Follow r) :
    portTypeDeclaration (c!"port" ++ w1 ++ n ++ w2 ++ c!":" ++ g ++ c ++ r) = .ok (.PortTypeDeclaration n t) r := by
  unfold portTypeDeclaration
  simp only [bind_eq_ok, pure_eq_ok, List.append_assoc, List.cons_append, List.nil_append]
  exact ⟨_, _, tag_ok _ _, _, _, spaces_ok h1 (loName_notSpace hn _), _, _,
    loName_complete hn (tokenEnd_ident (spaces_tokenEnd h2)), _, _, spaces_ok h2 (next_cons.2 (by decide)), _, _,
    char_cons .., _, _, hg.gap (ty_head_noGap hc trivial), _, _, typeAnnotation_complete hc (hr.tyStop i), rfl, rfl⟩

theorem portArgs_tokenEnd {as : List Name} {cs : Str} (h : PortArgs as cs) (hr : TokenEnd r) : TokenEnd (cs ++ r) := by
  cases h with
  | nil => exact hr
  | cons hw _ _ => simp only [List.append_assoc]; exact spaces_tokenEnd hw

theorem portArgs_run {as : List Name} {cs : Str} (h : PortArgs as cs) (hr : TokenEnd r) :
    Run (preceded spaces loName) (cs ++ r) as r := by
  induction h with
  | nil => exact .nil _
  | @cons n ns w cs hw hn h ih =>
    refine run_cons (cons_preceded' cons_spaces cons_loName) (r := cs ++ r) ?_ ih
    simp only [List.append_assoc]
    exact preceded_eq_ok.2 ⟨_, _, spaces_ok hw (loName_notSpace hn _),
      loName_complete hn (tokenEnd_ident (portArgs_tokenEnd h hr))⟩

theorem port_ok {n : Name} {as : List Name} {e : Expr} {w1 cs w2 g c : Str} {i : Nat} (h1 : SpacesTxt w1)
    (hn : LoName n) (ha : PortArgs as cs) (h2 : SpacesTxt w2) (hg : GapTxt 0 .GT i g) (hc : Src True i (.expr e) c)
    (hr : Follow r) :
    portDeclaration (c!"port" ++ w1 ++ n ++ cs ++ w2 ++ c!"=" ++ g ++ c ++ r) = .ok (.PortDeclaration n as e) r := by
  have he : preceded spaces loName (w2 ++ '=' :: (g ++ (c ++ r))) = .err := by
    rw [preceded_apply, spaces_ok h2 (next_cons.2 (by decide)), andThen_ok, loName_err_head (by decide) (by decide)]
  unfold portDeclaration
  simp only [bind_eq_ok, pure_eq_ok, List.append_assoc, List.cons_append, List.nil_append]
  exact ⟨_, _, tag_ok _ _, _, _, spaces_ok h1 (loName_notSpace hn _), _, _,
    loName_complete hn (tokenEnd_ident (portArgs_tokenEnd ha (spaces_tokenEnd h2))), _, _,
    many0_ok_of_run (portArgs_run ha (spaces_tokenEnd h2)) he, _, _, spaces_ok h2 (next_cons.2 (by decide)), _, _,
    char_cons .., _, _, hg.gap (src_starts hc trivial).noGap, _, _, expression_complete hc (hr.exprStop i), rfl, rfl⟩

/-! ### Infix declarations and comments -/

theorem digits_notSpace {d : Str} (h : Digits d) : Next (· ≠ ' ') (d ++ r) := by
  obtain ⟨h1, h2⟩ := h
  cases d with
  | nil => exact absurd rfl h1
  | cons x d =>
    refine next_cons.2 ?_
    rintro rfl
    have := h2 ' ' (by simp)
    revert this; decide

theorem operator_notSpace {n : Name} (h : Operator n) : Next (· ≠ ' ') (n ++ r) := by
  obtain ⟨h1, h2, -⟩ := h
  cases n with
  | nil => exact absurd rfl h1
  | cons x n =>
    refine next_cons.2 ?_
    rintro rfl
    have := h2 ' ' (by simp)
    revert this; decide

theorem operator_not_lo {n : Name} (h : Operator n) : ∃ x t, n = x :: t ∧ OpChar x ∧ ¬ Lower x ∧ x ≠ '_' := by
  obtain ⟨h1, h2, -⟩ := h
  cases n with
  | nil => exact absurd rfl h1
  | cons x n =>
    have := h2 x (by simp)
    refine ⟨x, n, rfl, this, ?_, ?_⟩
    · intro hx
      exact (opChar_not this).1 (.inl hx)
    · rintro rfl
      revert this; decide

theorem infix_ok {a : Assoc} {n : Name} {w1 d w2 : Str} (h1 : SpacesTxt w1) (hd : Digits d)
    (hv : decimal d ≤ i64Max) (h2 : SpacesTxt w2) (hn : LoName n ∨ Operator n) (hr : Follow r) :
    infixDeclaration (assocText a ++ w1 ++ d ++ w2 ++ n ++ r) = .ok (.InfixDeclaration a (decimal d) n) r := by
  have hw1 : Next (fun c => c ≠ 'l' ∧ c ≠ 'r') (w1 ++ (d ++ (w2 ++ (n ++ r)))) :=
    optSpaces_next h1.2 (by decide) (by
      cases d with
      | nil => exact absurd rfl hd.1
      | cons x d =>
        refine next_cons.2 ⟨?_, ?_⟩ <;> rintro rfl <;> have := hd.2 _ List.mem_cons_self <;> revert this <;> decide)
  have hdig : Next (fun c => ¬ Digit c) (w2 ++ (n ++ r)) := by
    obtain ⟨h3, h4⟩ := h2
    cases w2 with
    | nil => exact absurd rfl h3
    | cons x w => obtain rfl := h4 x (by simp); exact next_cons.2 (by decide)
  have hnm : (loName </> operator) (n ++ r) = .ok n r := by
    rcases hn with hn | hn
    · exact alt_eq_ok.2 (.inl (loName_complete hn hr.ident))
    · refine alt_eq_ok.2 (.inr ⟨?_, operator_iff.2 ⟨rfl, hn, hr.notOp⟩⟩)
      obtain ⟨x, t, rfl, -, h3, h4⟩ := operator_not_lo hn
      exact loName_err_head h3 h4
  unfold infixDeclaration
  simp only [bind_eq_ok, pure_eq_ok, List.append_assoc]
  exact ⟨_, _, assoc_iff.2 ⟨rfl, fun _ => hw1⟩, _, _, spaces_ok h1 (digits_notSpace hd), _, _,
    mapRes_eq_ok.2 ⟨_, digit_iff.2 ⟨rfl, hd, hdig⟩, parseI64_iff.2 ⟨rfl, hv⟩⟩, _, _,
    spaces_ok h2 (hn.elim (fun h => loName_notSpace h _) operator_notSpace), _, _, hnm, rfl, rfl⟩

end ElmParser
