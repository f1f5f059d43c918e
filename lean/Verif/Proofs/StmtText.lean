import Verif.Proofs.StmtOrder
import Verif.Proofs.ExprText
import Verif.Proofs.Names

/-! The statements that have a text are exactly the well-formed ones. -/
namespace ElmParser
open Spec

/-! ### Texts are texts of well-formed statements -/

theorem consText_wf {o : Option ExportSet} {c : Str} (h : ConsText o c) : WFCons o := by
  cases h with
  | none => trivial
  | all => trivial
  | @some ns h1 h2 =>
    refine ⟨by simpa using h1, fun e he => ?_⟩
    obtain ⟨n, hn, rfl⟩ := List.mem_map.1 he
    exact ⟨n, rfl, h2 n hn⟩

theorem exportText_wf {e : ExportSet} {c : Str} (h : ExportText e c) : WFExport e := by
  cases h with
  | function h => exact fnName_wf h
  | type_ h h' => exact ⟨h, consText_wf h'⟩

theorem exportItems_wf {es : List ExportSet} {c : Str} (h : ExportItems es c) : ∀ e ∈ es, WFExport e := by
  induction h with
  | nil => simp
  | cons _ _ h _ ih => exact List.forall_mem_cons.2 ⟨exportText_wf h, ih⟩

theorem exportsText_wf {e : ExportSet} {c : Str} (h : ExportsText e c) : WFExports e := by
  cases h with
  | all => trivial
  | some _ h h' _ => exact ⟨by simp, List.forall_mem_cons.2 ⟨exportText_wf h, exportItems_wf h'⟩⟩

theorem effectItems_wf {fs : List (Name × Name)} {c : Str} (h : EffectItems fs c) :
    ∀ f ∈ fs, LoName f.1 ∧ UpName f.2 := by
  induction h with
  | nil => simp
  | cons h _ ih =>
    cases h with
    | mk h1 _ _ h2 => exact List.forall_mem_cons.2 ⟨⟨h1, h2⟩, ih⟩

theorem effectsText_wf {fs : List (Name × Name)} {c : Str} (h : EffectsText fs c) :
    ∀ f ∈ fs, LoName f.1 ∧ UpName f.2 := by
  cases h with
  | nil => simp
  | cons h h' =>
    cases h with
    | mk h1 _ _ h2 => exact List.forall_mem_cons.2 ⟨⟨h1, h2⟩, effectItems_wf h'⟩

theorem constructorItems_wf {i : Nat} {us : List Ty} {c : Str} (h : ConstructorItems i us c) :
    ∀ u ∈ us, WFTy u ∧ ∃ ns ts, u = .TypeConstructor ns ts := by
  induction h with
  | nil => simp
  | cons _ _ h _ ih => exact List.forall_mem_cons.2 ⟨⟨tySrc_wf h, _, _, rfl⟩, ih⟩

theorem portArgs_wf {as : List Name} {c : Str} (h : PortArgs as c) : ∀ a ∈ as, LoName a := by
  induction h with
  | nil => simp
  | cons _ h _ ih => exact List.forall_mem_cons.2 ⟨h, ih⟩

theorem stmtSrc_wf {st : Prop} {x : Statement} {c : Str} (h : StmtSrc st x c) : WFStatement x := by
  cases h with
  | portModule _ _ h1 h2 _ _ h3 => exact ⟨⟨h1, h2⟩, exportsText_wf h3⟩
  | effectModule _ _ h1 h2 _ _ h3 _ _ h4 => exact ⟨⟨h1, h2⟩, effectsText_wf h3, exportsText_wf h4⟩
  | module_ _ h1 h2 _ _ h3 => exact ⟨⟨h1, h2⟩, exportsText_wf h3⟩
  | import_ _ h1 h2 h3 h4 =>
    refine ⟨⟨h1, h2⟩, ?_, ?_⟩
    · rintro n rfl; cases h3 with | some _ _ h => exact h
    · rintro n rfl; cases h4 with | some _ _ h => exact exportsText_wf h
  | typeAlias _ _ h1 _ _ h2 => exact ⟨tySrc_wf h1, tySrc_wf h2⟩
  | type_ _ h1 _ _ h2 h3 =>
    exact ⟨tySrc_wf h1, by simp, List.forall_mem_cons.2 ⟨⟨tySrc_wf h2, _, _, rfl⟩, constructorItems_wf h3⟩⟩
  | portType _ h1 _ _ h2 => exact ⟨h1, tySrc_wf h2⟩
  | port _ h1 h2 _ _ h3 => exact ⟨h1, portArgs_wf h2, src_wf h3⟩
  | function h => exact src_wf h
  | infix_ _ _ h1 _ h2 => exact ⟨⟨Int.natCast_nonneg _, Int.ofNat_le.2 h1⟩, h2⟩
  | block h => exact .inr h

theorem stmts_wf {st : Prop} {b : Bool} {sts : List Statement} {c : Str} (h : Stmts st b sts c) :
    ∀ x ∈ sts, WFStatement x := by
  induction h with
  | last => simp
  | sep _ _ _ _ ih => exact ih
  | line h _ _ ih => exact List.forall_mem_cons.2 ⟨.inl h, ih⟩
  | stmt h _ ih => exact List.forall_mem_cons.2 ⟨stmtSrc_wf h, ih⟩

theorem stmts_ne {st : Prop} {sts : List Statement} {c : Str} (h : Stmts st true sts c) : sts ≠ [] := by
  cases h <;> simp

/-! ### Well-formed statements have texts -/

theorem wfCons_text {o : Option ExportSet} (h : WFCons o) : ∃ c, ConsText o c := by
  match o, h with
  | none, _ => exact ⟨_, .none⟩
  | some .AllExport, _ => exact ⟨_, .all⟩
  | some (.SubsetExport es), ⟨h1, h2⟩ =>
    have : ∃ ns : List Name, es = ns.map .FunctionExport ∧ ∀ n ∈ ns, UpName n := by
      clear h1
      induction es with
      | nil => exact ⟨[], rfl, by simp⟩
      | cons e es ih =>
        obtain ⟨n, rfl, hn⟩ := h2 e (by simp)
        obtain ⟨ns, rfl, hns⟩ := ih fun e he => h2 e (List.mem_cons_of_mem _ he)
        exact ⟨n :: ns, rfl, List.forall_mem_cons.2 ⟨hn, hns⟩⟩
    obtain ⟨ns, rfl, hns⟩ := this
    exact ⟨_, .some (by simpa using h1) hns⟩

theorem wfExport_text {e : ExportSet} (h : WFExport e) : ∃ c, ExportText e c := by
  match e, h with
  | .FunctionExport n, h =>
    obtain ⟨m, hm⟩ := fnName_text h
    exact ⟨m, .function hm⟩
  | .TypeExport n o, ⟨h1, h2⟩ =>
    obtain ⟨c, hc⟩ := wfCons_text h2
    exact ⟨_, .type_ h1 hc⟩

theorem wfItems_text {es : List ExportSet} (h : ∀ e ∈ es, WFExport e) : ∃ c, ExportItems es c := by
  induction es with
  | nil => exact ⟨_, .nil⟩
  | cons e es ih =>
    obtain ⟨c, hc⟩ := wfExport_text (h e (by simp))
    obtain ⟨cs, hcs⟩ := ih fun e he => h e (List.mem_cons_of_mem _ he)
    exact ⟨_, .cons (w1 := []) (w2 := [' ']) (by simp [OptSpaceNl]) (by simp [OptSpaceNl]) hc hcs⟩

theorem wfExports_text {e : ExportSet} (h : WFExports e) : ∃ c, ExportsText e c := by
  match e, h with
  | .AllExport, _ => exact ⟨_, .all (.inl rfl) (.inl rfl)⟩
  | .SubsetExport (e :: es), ⟨_, h⟩ =>
    obtain ⟨c, hc⟩ := wfExport_text (h e (by simp))
    obtain ⟨cs, hcs⟩ := wfItems_text fun e he => h e (List.mem_cons_of_mem _ he)
    exact ⟨_, .some (.inl rfl) hc hcs (.inl rfl)⟩

theorem wfEffect_text {f : Name × Name} (h : LoName f.1 ∧ UpName f.2) : ∃ c, EffectText f c :=
  ⟨_, .mk (w1 := []) (w2 := []) h.1 (by simp [OptSpaces]) (by simp [OptSpaces]) h.2⟩

theorem wfEffects_text {fs : List (Name × Name)} (h : ∀ f ∈ fs, LoName f.1 ∧ UpName f.2) : ∃ c, EffectsText fs c := by
  have items : ∀ fs : List (Name × Name), (∀ f ∈ fs, LoName f.1 ∧ UpName f.2) → ∃ c, EffectItems fs c := by
    intro fs h
    induction fs with
    | nil => exact ⟨_, .nil⟩
    | cons f fs ih =>
      obtain ⟨c, hc⟩ := wfEffect_text (h f (by simp))
      obtain ⟨cs, hcs⟩ := ih fun f hf => h f (List.mem_cons_of_mem _ hf)
      exact ⟨_, .cons hc hcs⟩
  cases fs with
  | nil => exact ⟨_, .nil⟩
  | cons f fs =>
    obtain ⟨c, hc⟩ := wfEffect_text (h f (by simp))
    obtain ⟨cs, hcs⟩ := items fs fun f hf => h f (List.mem_cons_of_mem _ hf)
    exact ⟨_, .cons hc hcs⟩

theorem wfConstructors_text {us : List Ty} (i : Nat) (h : ∀ u ∈ us, WFTy u ∧ ∃ ns ts, u = .TypeConstructor ns ts) :
    ∃ c, ConstructorItems i us c := by
  induction us with
  | nil => exact ⟨_, .nil⟩
  | cons u us ih =>
    obtain ⟨h1, ns, ts, rfl⟩ := h u (by simp)
    obtain ⟨c, hc⟩ := (wfTy_text h1).2.1
    obtain ⟨cs, hcs⟩ := ih fun f hf => h f (List.mem_cons_of_mem _ hf)
    exact ⟨_, .cons (gapTxt_space i .GTE) spacesTxt_space (hc i) hcs⟩

theorem wfPortArgs_text {as : List Name} (h : ∀ a ∈ as, LoName a) : ∃ c, PortArgs as c := by
  induction as with
  | nil => exact ⟨_, .nil⟩
  | cons a as ih =>
    obtain ⟨cs, hcs⟩ := ih fun f hf => h f (List.mem_cons_of_mem _ hf)
    exact ⟨_, .cons spacesTxt_space (h a (by simp)) hcs⟩

theorem decimal_append (d e : Str) : decimal (d ++ e) = decimal d * 10 ^ e.length + decimal e := by
  induction d with
  | nil => simp [decimal]
  | cons c d ih =>
    simp only [List.cons_append, decimal, ih, List.length_append, Nat.pow_add]
    rw [Nat.add_mul, Nat.mul_assoc, Nat.add_assoc]

/-- Every number has digits. -/
theorem digits_exist (n : Nat) : ∃ d, Digits d ∧ decimal d = n := by
  have one : ∀ k, k < 10 → ∃ c : Char, Digit c ∧ c.toNat - 48 = k := by
    intro k hk
    have : ∀ k : Fin 10, ∃ c ∈ c!"0123456789", Digit c ∧ c.toNat - 48 = k.1 := by decide
    obtain ⟨c, -, h⟩ := this ⟨k, hk⟩
    exact ⟨c, h⟩
  induction n using Nat.strongRecOn with
  | ind n ih =>
    by_cases hn : n < 10
    · obtain ⟨c, h1, h2⟩ := one n hn
      exact ⟨[c], ⟨by simp, by simpa using h1⟩, by simpa [decimal] using h2⟩
    · obtain ⟨d, ⟨h1, h2⟩, h3⟩ := ih (n / 10) (by omega)
      obtain ⟨c, h4, h5⟩ := one (n % 10) (by omega)
      refine ⟨d ++ [c], ⟨by simp, ?_⟩, ?_⟩
      · simp only [List.mem_append, List.mem_singleton]
        rintro x (hx | rfl)
        · exact h2 x hx
        · exact h4
      · rw [decimal_append, h3]
        simp only [List.length_singleton, Nat.pow_one, decimal, List.length_nil, Nat.pow_zero, Nat.mul_one, Nat.add_zero, h5]
        omega

/-- A text of a statement: one that is not a line comment, or a line comment without the end of its line. -/
theorem wfStatement_text {x : Statement} (h : WFStatement x) :
    (∃ c, StmtSrc True x c) ∨ ∃ t, x = .Comment t ∧ '\n' ∉ t := by
  cases x with
  | ModuleDeclaration ns e =>
    obtain ⟨⟨h1, h2⟩, h3⟩ := h
    obtain ⟨c, hc⟩ := wfExports_text h3
    exact .inl ⟨_, .module_ (gapTxt_space 0 .GT) h1 h2 (gapTxt_space 0 .GT) (gapTxt_space 0 .GT) hc⟩
  | PortModuleDeclaration ns e =>
    obtain ⟨⟨h1, h2⟩, h3⟩ := h
    obtain ⟨c, hc⟩ := wfExports_text h3
    exact .inl ⟨_, .portModule (gapTxt_space 0 .GT) (gapTxt_space 0 .GT) h1 h2 (gapTxt_space 0 .GT) (gapTxt_space 0 .GT) hc⟩
  | EffectModuleDeclaration ns fs e =>
    obtain ⟨⟨h1, h2⟩, h4, h3⟩ := h
    obtain ⟨c, hc⟩ := wfExports_text h3
    obtain ⟨d, hd⟩ := wfEffects_text h4
    exact .inl ⟨_, .effectModule (gapTxt_space 0 .GT) (gapTxt_space 0 .GT) h1 h2 (gapTxt_space 0 .GT)
      (gapTxt_space 0 .GT) hd (gapTxt_space 0 .GT) (gapTxt_space 0 .GT) hc⟩
  | ImportStatement ns a e =>
    obtain ⟨⟨h1, h2⟩, h3, h4⟩ := h
    have ha : ∃ c, AliasText a c := by
      cases a with
      | none => exact ⟨_, .none⟩
      | some n => exact ⟨_, .some spacesTxt_space spacesTxt_space (h3 n rfl)⟩
    have he : ∃ c, ExposingText e c := by
      cases e with
      | none => exact ⟨_, .none⟩
      | some x =>
        obtain ⟨c, hc⟩ := wfExports_text (h4 x rfl)
        exact ⟨_, .some spacesTxt_space spacesTxt_space hc⟩
    obtain ⟨c, hc⟩ := ha
    obtain ⟨d, hd⟩ := he
    exact .inl ⟨_, .import_ spacesTxt_space h1 h2 hc hd⟩
  | TypeAliasDeclaration t u =>
    obtain ⟨c, hc⟩ := (wfTy_text h.1).2.1
    obtain ⟨d, hd⟩ := (wfTy_text h.2).1
    exact .inl ⟨_, .typeAlias spacesTxt_space spacesTxt_space (hc 0) spacesTxt_space (gapTxt_space 1 .GTE) (hd 1)⟩
  | TypeDeclaration t us =>
    obtain ⟨h1, h2, h3⟩ := h
    cases us with
    | nil => exact absurd rfl h2
    | cons u us =>
      obtain ⟨h4, ns, ts, rfl⟩ := h3 u (by simp)
      obtain ⟨c, hc⟩ := (wfTy_text h1).2.1
      obtain ⟨d, hd⟩ := (wfTy_text h4).2.1
      obtain ⟨ds, hds⟩ := wfConstructors_text 0 fun u hu => h3 u (List.mem_cons_of_mem _ hu)
      exact .inl ⟨_, .type_ spacesTxt_space (hc 0) (gapTxt_space 0 .GT) (gapTxt_space 0 .GTE) (hd 0) hds⟩
  | PortTypeDeclaration n t =>
    obtain ⟨c, hc⟩ := (wfTy_text h.2).1
    exact .inl ⟨_, .portType spacesTxt_space h.1 spacesTxt_space (gapTxt_space 0 .GT) (hc 0)⟩
  | PortDeclaration n as e =>
    obtain ⟨h1, h2, h3⟩ := h
    obtain ⟨cs, hcs⟩ := wfPortArgs_text h2
    obtain ⟨c, hc⟩ := (expr_text h3 0 (by decide)).expr
    exact .inl ⟨_, .port spacesTxt_space h1 hcs spacesTxt_space (gapTxt_space 0 .GT) hc⟩
  | Function f =>
    obtain ⟨c, hc⟩ := function_text h 0 (by decide)
    exact .inl ⟨_, .function hc⟩
  | InfixDeclaration a p n =>
    obtain ⟨⟨h1, h2⟩, h3⟩ := h
    obtain ⟨k, rfl⟩ := Int.eq_ofNat_of_zero_le h1
    obtain ⟨d, h4, rfl⟩ := digits_exist k
    exact .inl ⟨_, .infix_ spacesTxt_space h4 (Int.ofNat_le.1 h2) spacesTxt_space h3⟩
  | Comment t =>
    rcases h with h | h
    · exact .inr ⟨t, rfl, h⟩
    · exact .inl ⟨_, .block h⟩

end ElmParser
