import Verif.Proofs.Debug

/-! The derived `Debug` instances are injective. -/
namespace ElmParser

/-! ### The names -/

theorem namedAll_iff {xs : List Dbg} : NamedAll xs ↔ ∀ x ∈ xs, x.Named := by
  induction xs with
  | nil => simp [NamedAll]
  | cons x xs ih => rw [NamedAll, ih, List.forall_mem_cons]

theorem named_names (ns : List Name) : (dbgNames ns).Named := by
  rw [dbgNames, Dbg.Named, namedAll_iff]
  intro x hx
  obtain ⟨n, -, rfl⟩ := List.mem_map.1 hx
  simp [Dbg.Named]

theorem named_option {α : Type} {f : α → Dbg} (h : ∀ x, (f x).Named) (o : Option α) : (dbgOption f o).Named := by
  cases o with
  | none => simp [dbgOption, Dbg.Named, Letters, NamedAll]; decide
  | some x => simp [dbgOption, Dbg.Named, Letters, NamedAll, h x]; decide

theorem named_assoc (a : Assoc) : (dbgAssoc a).Named := by
  cases a <;> simp [dbgAssoc, Dbg.Named, Letters, NamedAll] <;> decide

mutual
theorem named_ty : (t : Ty) → (dbgTy t).Named
  | .TypeConstructor n ts => by
    simp [dbgTy, Dbg.Named, NamedAll, Letters, named_names n, named_tys ts]; decide
  | .TypeVariable n => by simp [dbgTy, Dbg.Named, NamedAll, Letters]; decide
  | .TypeRecordConstructor b fs => by
    simp [dbgTy, Dbg.Named, NamedAll, Letters, named_ty b, named_tyFields fs]; decide
  | .TypeRecord fs => by simp [dbgTy, Dbg.Named, NamedAll, Letters, named_tyFields fs]; decide
  | .TypeTuple ts => by simp [dbgTy, Dbg.Named, NamedAll, Letters, named_tys ts]; decide
  | .TypeApplication a b => by simp [dbgTy, Dbg.Named, NamedAll, Letters, named_ty a, named_ty b]; decide
theorem named_tys : (ts : List Ty) → NamedAll (dbgTys ts)
  | [] => by simp [dbgTys, NamedAll]
  | t :: ts => by simp [dbgTys, NamedAll, named_ty t, named_tys ts]
theorem named_tyFields : (ts : List (Name × Ty)) → NamedAll (dbgTyFields ts)
  | [] => by simp [dbgTyFields, NamedAll]
  | (n, t) :: ts => by simp [dbgTyFields, NamedAll, Dbg.Named, Letters, named_ty t, named_tyFields ts]
end

theorem named_signature : (s : FunctionSignature) → (dbgSignature s).Named
  | ⟨n, t⟩ => by simp [dbgSignature, Dbg.Named, NamedFields, Letters, named_ty t]; decide

mutual
theorem named_expr : (e : Expr) → (dbgExpr e).Named
  | .Character c => by simp [dbgExpr, Dbg.Named, NamedAll, Letters]; decide
  | .String s => by simp [dbgExpr, Dbg.Named, NamedAll, Letters]; decide
  | .Integer s => by simp [dbgExpr, Dbg.Named, NamedAll, Letters]; decide
  | .Float s => by simp [dbgExpr, Dbg.Named, NamedAll, Letters]; decide
  | .Variable ns => by simp [dbgExpr, Dbg.Named, NamedAll, Letters, named_names ns]; decide
  | .List es => by simp [dbgExpr, Dbg.Named, NamedAll, Letters, named_exprs es]; decide
  | .Tuple es => by simp [dbgExpr, Dbg.Named, NamedAll, Letters, named_exprs es]; decide
  | .Access e ns => by simp [dbgExpr, Dbg.Named, NamedAll, Letters, named_expr e, named_names ns]; decide
  | .AccessFunction n => by simp [dbgExpr, Dbg.Named, NamedAll, Letters]; decide
  | .Record fs => by simp [dbgExpr, Dbg.Named, NamedAll, Letters, named_fields fs]; decide
  | .RecordUpdate n fs => by simp [dbgExpr, Dbg.Named, NamedAll, Letters, named_fields fs]; decide
  | .If a b c => by simp [dbgExpr, Dbg.Named, NamedAll, Letters, named_expr a, named_expr b, named_expr c]; decide
  | .Let es b => by simp [dbgExpr, Dbg.Named, NamedAll, Letters, named_entries es, named_expr b]; decide
  | .Case e bs => by simp [dbgExpr, Dbg.Named, NamedAll, Letters, named_branches bs, named_expr e]; decide
  | .Lambda as b => by simp [dbgExpr, Dbg.Named, NamedAll, Letters, named_exprs as, named_expr b]; decide
  | .Application f x => by simp [dbgExpr, Dbg.Named, NamedAll, Letters, named_expr f, named_expr x]; decide
  | .BinOp o l r => by simp [dbgExpr, Dbg.Named, NamedAll, Letters, named_expr o, named_expr l, named_expr r]; decide
theorem named_exprs : (es : List Expr) → NamedAll (dbgExprs es)
  | [] => by simp [dbgExprs, NamedAll]
  | e :: es => by simp [dbgExprs, NamedAll, named_expr e, named_exprs es]
theorem named_fields : (fs : List (Name × Expr)) → NamedAll (dbgFields fs)
  | [] => by simp [dbgFields, NamedAll]
  | (n, e) :: fs => by simp [dbgFields, NamedAll, Dbg.Named, Letters, named_expr e, named_fields fs]
theorem named_branches : (bs : List (Expr × Expr)) → NamedAll (dbgBranches bs)
  | [] => by simp [dbgBranches, NamedAll]
  | (p, e) :: bs => by simp [dbgBranches, NamedAll, Dbg.Named, Letters, named_expr p, named_expr e, named_branches bs]
theorem named_definition : (d : FunctionDefinition) → (dbgDefinition d).Named
  | .mk n as b => by simp [dbgDefinition, Dbg.Named, NamedFields, Letters, named_exprs as, named_expr b]; decide
theorem named_function : (f : Function) → (dbgFunction f).Named
  | .mk s d => by
    simp [dbgFunction, Dbg.Named, NamedFields, Letters, named_option named_signature s, named_definition d]; decide
theorem named_entry : (e : LetEntry) → (dbgEntry e).Named
  | .LetFunction f => by simp [dbgEntry, Dbg.Named, NamedAll, Letters, named_function f]; decide
  | .LetBinding a b => by simp [dbgEntry, Dbg.Named, NamedAll, Letters, named_expr a, named_expr b]; decide
theorem named_entries : (es : List LetEntry) → NamedAll (dbgEntries es)
  | [] => by simp [dbgEntries, NamedAll]
  | e :: es => by simp [dbgEntries, NamedAll, named_entry e, named_entries es]
end

mutual
theorem named_export : (e : ExportSet) → (dbgExport e).Named
  | .AllExport => by simp [dbgExport, Dbg.Named, NamedAll, Letters]; decide
  | .SubsetExport es => by simp [dbgExport, Dbg.Named, NamedAll, Letters, named_exports es]; decide
  | .FunctionExport n => by simp [dbgExport, Dbg.Named, NamedAll, Letters]; decide
  | .TypeExport n none => by simp [dbgExport, Dbg.Named, NamedAll, Letters]; decide
  | .TypeExport n (some e) => by simp [dbgExport, Dbg.Named, NamedAll, Letters, named_export e]; decide
theorem named_exports : (es : List ExportSet) → NamedAll (dbgExports es)
  | [] => by simp [dbgExports, NamedAll]
  | e :: es => by simp [dbgExports, NamedAll, named_export e, named_exports es]
end

theorem named_statement (x : Statement) : (dbgStatement x).Named := by
  have str : ∀ n, (Dbg.str n).Named := fun n => by simp [Dbg.Named]
  cases x with
  | ModuleDeclaration n e => simp [dbgStatement, Dbg.Named, NamedAll, Letters, named_names n, named_export e]; decide
  | PortModuleDeclaration n e => simp [dbgStatement, Dbg.Named, NamedAll, Letters, named_names n, named_export e]; decide
  | EffectModuleDeclaration n w e =>
    have : NamedAll (w.map fun p => Dbg.tuple [] [.str p.1, .str p.2]) := by
      rw [namedAll_iff]
      intro x hx
      obtain ⟨p, -, rfl⟩ := List.mem_map.1 hx
      simp [Dbg.Named, NamedAll, Letters]
    simp [dbgStatement, Dbg.Named, NamedAll, Letters, named_names n, named_export e, this]
    decide
  | ImportStatement n a e =>
    simp [dbgStatement, Dbg.Named, NamedAll, Letters, named_names n, named_option str a, named_option named_export e]
    decide
  | TypeAliasDeclaration a b => simp [dbgStatement, Dbg.Named, NamedAll, Letters, named_ty a, named_ty b]; decide
  | TypeDeclaration a bs => simp [dbgStatement, Dbg.Named, NamedAll, Letters, named_ty a, named_tys bs]; decide
  | PortTypeDeclaration n t => simp [dbgStatement, Dbg.Named, NamedAll, Letters, named_ty t]; decide
  | PortDeclaration n as b => simp [dbgStatement, Dbg.Named, NamedAll, Letters, named_names as, named_expr b]; decide
  | Function f => simp [dbgStatement, Dbg.Named, NamedAll, Letters, named_function f]; decide
  | InfixDeclaration a p n => simp [dbgStatement, Dbg.Named, NamedAll, Letters, named_assoc a]; decide
  | Comment s => simp [dbgStatement, Dbg.Named, NamedAll, Letters]; decide

/-! ### Injectivity -/

theorem map_inj {α β : Type} {f : α → β} (hf : ∀ x y, f x = f y → x = y) {xs ys : List α} (h : xs.map f = ys.map f) :
    xs = ys := by
  induction xs generalizing ys with
  | nil => cases ys with
    | nil => rfl
    | cons => cases h
  | cons x xs ih => cases ys with
    | nil => cases h
    | cons y ys =>
      obtain ⟨h1, h2⟩ := List.cons.inj h
      rw [hf _ _ h1, ih h2]

theorem dbgNames_inj {a b : List Name} (h : dbgNames a = dbgNames b) : a = b := by
  simp only [dbgNames, Dbg.list.injEq] at h
  exact map_inj (fun x y h => by simpa using h) h

theorem dbgOption_inj {α : Type} {f : α → Dbg} (hf : ∀ x y, f x = f y → x = y) {a b : Option α}
    (h : dbgOption f a = dbgOption f b) : a = b := by
  cases a <;> cases b <;> simp [dbgOption] at h
  · rfl
  · rw [hf _ _ h]

theorem dbgAssoc_inj {a b : Assoc} (h : dbgAssoc a = dbgAssoc b) : a = b := by
  cases a <;> cases b <;> simp [dbgAssoc] at h <;> rfl

mutual
theorem dbgTy_inj : (a b : Ty) → dbgTy a = dbgTy b → a = b
  | .TypeConstructor n ts, b, h => by
    cases b <;> simp [dbgTy] at h
    rw [dbgNames_inj h.1, dbgTys_inj _ _ h.2]
  | .TypeVariable n, b, h => by
    cases b <;> simp [dbgTy] at h
    rw [h]
  | .TypeRecordConstructor t fs, b, h => by
    cases b <;> simp [dbgTy] at h
    rw [dbgTy_inj _ _ h.1, dbgTyFields_inj _ _ h.2]
  | .TypeRecord fs, b, h => by
    cases b <;> simp [dbgTy] at h
    rw [dbgTyFields_inj _ _ h]
  | .TypeTuple ts, b, h => by
    cases b <;> simp [dbgTy] at h
    rw [dbgTys_inj _ _ h]
  | .TypeApplication s t, b, h => by
    cases b <;> simp [dbgTy] at h
    rw [dbgTy_inj _ _ h.1, dbgTy_inj _ _ h.2]
theorem dbgTys_inj : (a b : List Ty) → dbgTys a = dbgTys b → a = b
  | [], b, h => by
    cases b <;> simp [dbgTys] at h
    rfl
  | t :: ts, b, h => by
    cases b <;> simp [dbgTys] at h
    rw [dbgTy_inj _ _ h.1, dbgTys_inj _ _ h.2]
theorem dbgTyFields_inj : (a b : List (Name × Ty)) → dbgTyFields a = dbgTyFields b → a = b
  | [], b, h => by
    cases b <;> simp [dbgTyFields] at h
    rfl
  | (n, t) :: ts, b, h => by
    cases b <;> simp [dbgTyFields] at h
    rw [h.1.1, dbgTy_inj _ _ h.1.2, dbgTyFields_inj _ _ h.2]
end

theorem dbgSignature_inj (a b : FunctionSignature) (h : dbgSignature a = dbgSignature b) : a = b := by
  cases a; cases b
  simp [dbgSignature] at h
  rw [h.1, dbgTy_inj _ _ h.2]

mutual
theorem dbgExpr_inj : (a b : Expr) → dbgExpr a = dbgExpr b → a = b
  | .Character c, b, h => by
    cases b <;> simp [dbgExpr] at h
    rw [h]
  | .String s, b, h => by
    cases b <;> simp [dbgExpr] at h
    rw [h]
  | .Integer s, b, h => by
    cases b <;> simp [dbgExpr] at h
    rw [h]
  | .Float s, b, h => by
    cases b <;> simp [dbgExpr] at h
    rw [h]
  | .Variable ns, b, h => by
    cases b <;> simp [dbgExpr] at h
    rw [dbgNames_inj h]
  | .List es, b, h => by
    cases b <;> simp [dbgExpr] at h
    rw [dbgExprs_inj _ _ h]
  | .Tuple es, b, h => by
    cases b <;> simp [dbgExpr] at h
    rw [dbgExprs_inj _ _ h]
  | .Access e ns, b, h => by
    cases b <;> simp [dbgExpr] at h
    rw [dbgExpr_inj _ _ h.1, dbgNames_inj h.2]
  | .AccessFunction n, b, h => by
    cases b <;> simp [dbgExpr] at h
    rw [h]
  | .Record fs, b, h => by
    cases b <;> simp [dbgExpr] at h
    rw [dbgFields_inj _ _ h]
  | .RecordUpdate n fs, b, h => by
    cases b <;> simp [dbgExpr] at h
    rw [h.1, dbgFields_inj _ _ h.2]
  | .If x y z, b, h => by
    cases b <;> simp [dbgExpr] at h
    rw [dbgExpr_inj _ _ h.1, dbgExpr_inj _ _ h.2.1, dbgExpr_inj _ _ h.2.2]
  | .Let es e, b, h => by
    cases b <;> simp [dbgExpr] at h
    rw [dbgEntries_inj _ _ h.1, dbgExpr_inj _ _ h.2]
  | .Case e bs, b, h => by
    cases b <;> simp [dbgExpr] at h
    rw [dbgExpr_inj _ _ h.1, dbgBranches_inj _ _ h.2]
  | .Lambda as e, b, h => by
    cases b <;> simp [dbgExpr] at h
    rw [dbgExprs_inj _ _ h.1, dbgExpr_inj _ _ h.2]
  | .Application f x, b, h => by
    cases b <;> simp [dbgExpr] at h
    rw [dbgExpr_inj _ _ h.1, dbgExpr_inj _ _ h.2]
  | .BinOp x y z, b, h => by
    cases b <;> simp [dbgExpr] at h
    rw [dbgExpr_inj _ _ h.1, dbgExpr_inj _ _ h.2.1, dbgExpr_inj _ _ h.2.2]
theorem dbgExprs_inj : (a b : List Expr) → dbgExprs a = dbgExprs b → a = b
  | [], b, h => by
    cases b <;> simp [dbgExprs] at h
    rfl
  | e :: es, b, h => by
    cases b <;> simp [dbgExprs] at h
    rw [dbgExpr_inj _ _ h.1, dbgExprs_inj _ _ h.2]
theorem dbgFields_inj : (a b : List (Name × Expr)) → dbgFields a = dbgFields b → a = b
  | [], b, h => by
    cases b <;> simp [dbgFields] at h
    rfl
  | (n, e) :: es, b, h => by
    cases b <;> simp [dbgFields] at h
    rw [h.1.1, dbgExpr_inj _ _ h.1.2, dbgFields_inj _ _ h.2]
theorem dbgBranches_inj : (a b : List (Expr × Expr)) → dbgBranches a = dbgBranches b → a = b
  | [], b, h => by
    cases b <;> simp [dbgBranches] at h
    rfl
  | (p, e) :: es, b, h => by
    cases b <;> simp [dbgBranches] at h
    rw [dbgExpr_inj _ _ h.1.1, dbgExpr_inj _ _ h.1.2, dbgBranches_inj _ _ h.2]
theorem dbgDefinition_inj : (a b : FunctionDefinition) → dbgDefinition a = dbgDefinition b → a = b
  | .mk n as e, .mk n' as' e', h => by
    simp [dbgDefinition] at h
    rw [h.1, dbgExprs_inj _ _ h.2.1, dbgExpr_inj _ _ h.2.2]
theorem dbgFunction_inj : (a b : Function) → dbgFunction a = dbgFunction b → a = b
  | .mk s d, .mk s' d', h => by
    simp [dbgFunction] at h
    rw [dbgOption_inj dbgSignature_inj h.1, dbgDefinition_inj _ _ h.2]
theorem dbgEntry_inj : (a b : LetEntry) → dbgEntry a = dbgEntry b → a = b
  | .LetFunction f, b, h => by
    cases b <;> simp [dbgEntry] at h
    rw [dbgFunction_inj _ _ h]
  | .LetBinding x y, b, h => by
    cases b <;> simp [dbgEntry] at h
    rw [dbgExpr_inj _ _ h.1, dbgExpr_inj _ _ h.2]
theorem dbgEntries_inj : (a b : List LetEntry) → dbgEntries a = dbgEntries b → a = b
  | [], b, h => by
    cases b <;> simp [dbgEntries] at h
    rfl
  | e :: es, b, h => by
    cases b <;> simp [dbgEntries] at h
    rw [dbgEntry_inj _ _ h.1, dbgEntries_inj _ _ h.2]
end

mutual
theorem dbgExport_inj : (a b : ExportSet) → dbgExport a = dbgExport b → a = b
  | .AllExport, b, h => by
    match b, h with
    | .AllExport, _ => rfl
    | .SubsetExport _, h => simp [dbgExport] at h
    | .FunctionExport _, h => simp [dbgExport] at h
    | .TypeExport _ none, h => simp [dbgExport] at h
    | .TypeExport _ (some _), h => simp [dbgExport] at h
  | .SubsetExport es, b, h => by
    match b, h with
    | .AllExport, h => simp [dbgExport] at h
    | .SubsetExport _, h => simp [dbgExport] at h; rw [dbgExports_inj _ _ h]
    | .FunctionExport _, h => simp [dbgExport] at h
    | .TypeExport _ none, h => simp [dbgExport] at h
    | .TypeExport _ (some _), h => simp [dbgExport] at h
  | .FunctionExport n, b, h => by
    match b, h with
    | .AllExport, h => simp [dbgExport] at h
    | .SubsetExport _, h => simp [dbgExport] at h
    | .FunctionExport _, h => simp [dbgExport] at h; rw [h]
    | .TypeExport _ none, h => simp [dbgExport] at h
    | .TypeExport _ (some _), h => simp [dbgExport] at h
  | .TypeExport n none, b, h => by
    match b, h with
    | .AllExport, h => simp [dbgExport] at h
    | .SubsetExport _, h => simp [dbgExport] at h
    | .FunctionExport _, h => simp [dbgExport] at h
    | .TypeExport _ none, h => simp [dbgExport] at h; rw [h]
    | .TypeExport _ (some _), h => simp [dbgExport] at h
  | .TypeExport n (some e), b, h => by
    match b, h with
    | .AllExport, h => simp [dbgExport] at h
    | .SubsetExport _, h => simp [dbgExport] at h
    | .FunctionExport _, h => simp [dbgExport] at h
    | .TypeExport _ none, h => simp [dbgExport] at h
    | .TypeExport _ (some _), h => simp [dbgExport] at h; rw [h.1, dbgExport_inj _ _ h.2]
theorem dbgExports_inj : (a b : List ExportSet) → dbgExports a = dbgExports b → a = b
  | [], b, h => by
    cases b <;> simp [dbgExports] at h
    rfl
  | e :: es, b, h => by
    cases b <;> simp [dbgExports] at h
    rw [dbgExport_inj _ _ h.1, dbgExports_inj _ _ h.2]
end

theorem dbgStatement_inj (a b : Statement) (h : dbgStatement a = dbgStatement b) : a = b := by
  cases a with
  | ModuleDeclaration n e =>
    cases b <;> simp [dbgStatement] at h
    rw [dbgNames_inj h.1, dbgExport_inj _ _ h.2]
  | PortModuleDeclaration n e =>
    cases b <;> simp [dbgStatement] at h
    rw [dbgNames_inj h.1, dbgExport_inj _ _ h.2]
  | EffectModuleDeclaration n w e =>
    cases b <;> simp only [dbgStatement, Dbg.tuple.injEq, List.cons.injEq, Dbg.list.injEq, reduceCtorEq,
      and_false, false_and, true_and, and_true] at h
    case EffectModuleDeclaration =>
      rw [dbgNames_inj h.1, dbgExport_inj _ _ h.2.2, map_inj (fun x y h => ?_) h.2.1]
      simpa [Prod.ext_iff] using h
    all_goals exact absurd h.1.1 (by decide)
  | ImportStatement n x e =>
    cases b <;> simp [dbgStatement] at h
    rw [dbgNames_inj h.1, dbgOption_inj (fun x y h => by simpa using h) h.2.1, dbgOption_inj dbgExport_inj h.2.2]
  | TypeAliasDeclaration x y =>
    cases b <;> simp [dbgStatement] at h
    rw [dbgTy_inj _ _ h.1, dbgTy_inj _ _ h.2]
  | TypeDeclaration x y =>
    cases b <;> simp [dbgStatement] at h
    rw [dbgTy_inj _ _ h.1, dbgTys_inj _ _ h.2]
  | PortTypeDeclaration n t =>
    cases b <;> simp [dbgStatement] at h
    rw [h.1, dbgTy_inj _ _ h.2]
  | PortDeclaration n as e =>
    cases b <;> simp [dbgStatement] at h
    rw [h.1, dbgNames_inj h.2.1, dbgExpr_inj _ _ h.2.2]
  | Function f =>
    cases b <;> simp [dbgStatement] at h
    rw [dbgFunction_inj _ _ h]
  | InfixDeclaration x p n =>
    cases b <;> simp [dbgStatement] at h
    rw [dbgAssoc_inj h.1, h.2.1, h.2.2]
  | Comment s =>
    cases b <;> simp [dbgStatement] at h
    rw [h]

end ElmParser
