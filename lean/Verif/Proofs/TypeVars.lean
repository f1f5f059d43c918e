import Verif.Proofs.ScanGrammar

/-! Type variables need a colon or the word `type`. -/
namespace ElmParser
open Spec

theorem fieldTyVars_nil : fieldTyVars [] = [] := by simp [fieldTyVars]
theorem branchTyVars_nil : branchTyVars [] = [] := by simp [branchTyVars]

theorem simpFields_tyVars {fs c} (h : SimpFields fs c) : fieldTyVars fs = [] := by
  induction h with
  | nil => exact fieldTyVars_nil
  | cons _ _ _ _ ih => rw [fieldTyVars_cons, ih]; simp [exprTyVars]

theorem simpBody_tyVars {fs c} (h : SimpBody fs c) : fieldTyVars fs = [] := by
  cases h with
  | nil => exact fieldTyVars_nil
  | cons _ _ _ h => rw [fieldTyVars_cons, simpFields_tyVars h]; simp [exprTyVars]

theorem src_noColon {st : Prop} {ind j cat c} (h : SrcAt st ind j cat c) : ((':' : Char) ∉ c) → catVars cat = [] := by
  induction h with
  | simp h =>
    intro _
    have := simpBody_tyVars h
    simp only [catVars, exprTyVars, this]
  | tRecord h =>
    intro _
    have := simpBody_tyVars h
    simp only [catVars, exprTyVars, this]
  | _ =>
    intro hc
    simp_all [catVars, exprTyVars, exprsTyVars, fieldTyVars_cons, branchTyVars_cons, entriesTyVars, entryTyVars, fnTyVars_none,
      defnTyVars, apps_tyVars, fieldTyVars_nil, branchTyVars_nil, List.mem_append]

theorem stmt_noColon {st : Prop} {x c} (h : StmtSrc st x c) (hc : ((':' : Char) ∉ c)) (ht : ∀ a b, c ≠ a ++ c!"type" ++ b) :
    statementTyVars x = [] := by
  cases h with
  | typeAlias => exact absurd (by simp only [List.append_assoc]; rfl) (ht [] _)
  | type_ => exact absurd (by simp only [List.append_assoc]; rfl) (ht [] _)
  | portType => exact absurd (by simp) hc
  | port _ _ _ _ _ h => exact src_noColon h fun hm => hc (by simp [hm])
  | function h => exact src_noColon h hc
  | _ => rfl

theorem stmts_noColon {st : Prop} {b sts c} (h : Stmts st b sts c) (hc : ((':' : Char) ∉ c))
    (ht : ∀ a b, c ≠ a ++ c!"type" ++ b) : ∀ x ∈ sts, statementTyVars x = [] := by
  induction h with
  | last => exact fun x hx => by simp at hx
  | @sep w _ c _ _ _ _ ih => exact ih (fun hm => hc (by simp [hm])) fun a b e => ht (w ++ a) b (by simp [e])
  | @line t _ c _ _ _ ih =>
    intro x hx
    rcases List.mem_cons.1 hx with rfl | hx
    · rfl
    · exact ih (fun hm => hc (by simp [hm])) (fun a b e => ht (c!"--" ++ t ++ a) b (by simp [e])) x hx
  | @stmt s c _ d h _ ih =>
    intro x hx
    rcases List.mem_cons.1 hx with rfl | hx
    · exact stmt_noColon h (fun hm => hc (by simp [hm])) fun a b e => ht a (b ++ d) (by simp [e])
    · exact ih (fun hm => hc (by simp [hm])) (fun a b e => ht (c ++ a) b (by simp [e])) x hx

theorem file_noColon {st : Prop} {sts c} (h : FileSrc st sts c) (hc : ((':' : Char) ∉ c))
    (ht : ∀ a b, c ≠ a ++ c!"type" ++ b) : ∀ x ∈ sts, statementTyVars x = [] := by
  obtain ⟨w, d, rfl, -, h⟩ := h
  exact stmts_noColon h (fun hm => hc (by simp [hm])) fun a b e => ht (w ++ a) b (by simp [e])

end ElmParser
