import Verif.Spec.StmtNames
import Verif.Proofs.Names

/-! No reserved word is a name in a well-formed statement. -/
namespace ElmParser
open Spec

theorem AllFree.flatMap {α : Type} {l : List α} {f : α → List Name} (h : ∀ x ∈ l, AllFree (f x)) :
    AllFree (l.flatMap f) := by
  intro n hn
  obtain ⟨x, hx, hn⟩ := List.mem_flatMap.1 hn
  exact h x hx n hn

theorem free_exportList {es : List ExportSet} (h : ∀ e ∈ es, AllFree (exportNames e)) : AllFree (exportsNames es) := by
  induction es with
  | nil => rw [exportsNames]; exact .nil
  | cons e es ih => rw [exportsNames]; exact .append (h e (by simp)) (ih fun e he => h e (List.mem_cons_of_mem _ he))

theorem free_export {e : ExportSet} (h : WFExport e) : AllFree (exportNames e) := by
  match e, h with
  | .FunctionExport n, h => rw [exportNames]; exact .cons (free_lo_or_op h) .nil
  | .TypeExport n none, ⟨h, _⟩ => rw [exportNames]; exact .cons (UpName.free h) .nil
  | .TypeExport n (some .AllExport), ⟨h, _⟩ => rw [exportNames, exportNames]; exact .cons (UpName.free h) .nil
  | .TypeExport n (some (.SubsetExport es)), ⟨h, _, h'⟩ =>
    rw [exportNames, exportNames]
    refine .cons (UpName.free h) (free_exportList fun e he => ?_)
    obtain ⟨m, rfl, hm⟩ := h' e he
    rw [exportNames]
    exact .cons (UpName.free hm) .nil

theorem free_exports {e : ExportSet} (h : WFExports e) : AllFree (exportNames e) := by
  match e, h with
  | .AllExport, _ => rw [exportNames]; exact .nil
  | .SubsetExport es, ⟨_, h⟩ => rw [exportNames]; exact free_exportList fun e he => free_export (h e he)

theorem WFModule.free {ns : List Name} (h : WFModule ns) : AllFree ns := fun n hn => UpName.free (h.2 n hn)

theorem free_statement {x : Statement} (h : WFStatement x) : AllFree (statementNames x) := by
  cases x with
  | ModuleDeclaration ns e => exact .append (WFModule.free h.1) (free_exports h.2)
  | PortModuleDeclaration ns e => exact .append (WFModule.free h.1) (free_exports h.2)
  | EffectModuleDeclaration ns fs e =>
    refine .append (.append (WFModule.free h.1) (.flatMap fun f hf => ?_)) (free_exports h.2.2)
    exact .cons (LoName.free (h.2.1 f hf).1) (.cons (UpName.free (h.2.1 f hf).2) .nil)
  | ImportStatement ns a e =>
    refine .append (.append (WFModule.free h.1) fun n hn => ?_) (.flatMap fun x hx => ?_)
    · exact UpName.free (h.2.1 n (by simpa using hn))
    · exact free_exports (h.2.2 x (by simpa using hx))
  | TypeAliasDeclaration t u => exact .append (free_ty h.1) (free_ty h.2)
  | TypeDeclaration t us => exact .append (free_ty h.1) (.flatMap fun u hu => free_ty (h.2.2 u hu).1)
  | PortTypeDeclaration n t => exact .cons (LoName.free h.1) (free_ty h.2)
  | PortDeclaration n as e =>
    exact .append (.cons (LoName.free h.1) fun a ha => LoName.free (h.2.1 a ha)) (free_expr h.2.2)
  | Function f => exact free_function h
  | InfixDeclaration a p n => exact .cons (free_lo_or_op h.2) .nil
  | Comment t => exact .nil

end ElmParser
