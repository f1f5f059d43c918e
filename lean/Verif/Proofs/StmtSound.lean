import Verif.Spec.Statements
import Verif.Proofs.ExprSound

/-! Every text the statement parsers accept is a layout of the statement they return. -/
namespace ElmParser
open Spec

variable {s r : Str}

theorem spaces_sound {v : Str} (h : spaces s = .ok v r) : s = v ++ r ∧ SpacesTxt v := by
  obtain ⟨h1, h2, h3, -⟩ := spaces_iff.1 h
  exact ⟨h1, h2, h3⟩

theorem optSpaces_sound {v : Option Str} (h : opt spaces s = .ok v r) : ∃ w, s = w ++ r ∧ OptSpaces w := by
  rcases opt_eq_ok.1 h with ⟨w, h, -⟩ | ⟨-, -, rfl⟩
  · obtain ⟨h1, h2⟩ := spaces_sound h
    exact ⟨w, h1, h2.2⟩
  · exact ⟨[], rfl, by simp [OptSpaces]⟩

theorem optSpaceNl_sound {v : Option Str} (h : opt spacesAndNewlines s = .ok v r) :
    ∃ w, s = w ++ r ∧ OptSpaceNl w := by
  rcases opt_eq_ok.1 h with ⟨w, h, -⟩ | ⟨-, -, rfl⟩
  · obtain ⟨h1, h2, -⟩ := spacesAndNewlines_iff.1 h
    exact ⟨w, h1, h2.2⟩
  · exact ⟨[], rfl, by simp [OptSpaceNl]⟩

theorem moduleName_sound {ns : List Name} (h : moduleName s = .ok ns r) :
    s = dotted ns ++ r ∧ ns ≠ [] ∧ ∀ n ∈ ns, UpName n := by
  obtain ⟨h1, h2, h3, -⟩ := moduleName_iff.1 h
  exact ⟨h1, h2, h3⟩

theorem upName_sound {n : Name} (h : upName s = .ok n r) : s = n ++ r ∧ UpName n := by
  obtain ⟨h1, h2, -⟩ := upName_iff.1 h
  exact ⟨h1, h2⟩

theorem dotted_append_ne_nil {ns : List Name} (h : ns ≠ []) (h' : ∀ n ∈ ns, UpName n) (t : Str) :
    dotted ns ++ t ≠ [] := by
  obtain ⟨c, u, e, -⟩ := dotted_head h h'
  simp [e]

/-! ### Exports -/

theorem allExport_iff {e : ExportSet} : allExport s = .ok e r ↔ e = .AllExport ∧ s = c!".." ++ r := by
  unfold allExport
  rw [pmap_eq_ok]
  constructor
  · rintro ⟨v, h, rfl⟩
    exact ⟨rfl, (tag_eq_ok.1 h).2⟩
  · rintro ⟨rfl, rfl⟩
    exact ⟨_, tag_eq_ok.2 ⟨rfl, rfl⟩, rfl⟩

theorem functionExport_sound {e : ExportSet} (h : functionExport s = .ok e r) :
    ∃ c, s = c ++ r ∧ ExportText e c := by
  unfold functionExport at h
  obtain ⟨n, h0, rfl⟩ := pmap_eq_ok.1 h
  have h' : functionNameOrOp s = .ok n r := by
    rcases alt_eq_ok.1 h0 with h | ⟨h1, h⟩
    · obtain ⟨m, h2, rfl⟩ := pmap_eq_ok.1 h
      exact alt_eq_ok.2 (.inl h2)
    · refine alt_eq_ok.2 (.inr ⟨?_, h⟩)
      unfold functionName at h1
      rw [pmap_apply] at h1
      rcases err_or_ok cons_loName s with e | ⟨v, r', e, -⟩
      · exact e
      · rw [e] at h1; cases h1
  obtain ⟨c, rfl, hc⟩ := functionNameOrOp_sound h'
  exact ⟨c, rfl, .function hc⟩

theorem commaNames_cons (n : Name) (ns : List Name) :
    commaNames (n :: ns) = n ++ (ns.map fun m => c!", " ++ m).flatten := by
  induction ns generalizing n with
  | nil => simp [commaNames]
  | cons m ns ih => simp [commaNames, ih]

theorem commaNames_sound {es : List ExportSet}
    (h : Steps (preceded (tag c!", ") (pmap upName .FunctionExport)) s es r) :
    ∃ ns : List Name, es = ns.map .FunctionExport ∧ s = (ns.map fun m => c!", " ++ m).flatten ++ r ∧
      ∀ n ∈ ns, UpName n := by
  induction h with
  | nil s => exact ⟨[], rfl, rfl, by simp⟩
  | cons h1 _ ih =>
    obtain ⟨ns, rfl, rfl, hns⟩ := ih
    obtain ⟨_, r1, h2, h3⟩ := preceded_eq_ok.1 h1
    obtain ⟨n, h4, rfl⟩ := pmap_eq_ok.1 h3
    obtain ⟨-, rfl⟩ := tag_eq_ok.1 h2
    obtain ⟨rfl, hn⟩ := upName_sound h4
    exact ⟨n :: ns, rfl, by simp, by simpa [hn] using hns⟩

theorem constructorExports_sound {o : Option ExportSet} (h : constructorExports s = .ok o r) :
    ∃ c, s = c ++ r ∧ ConsText o c := by
  unfold constructorExports at h
  rcases opt_eq_ok.1 h with ⟨e, h0, rfl⟩ | ⟨-, rfl, rfl⟩
  · obtain ⟨_, r1, r2, _, h1, h2, h3⟩ := delimited_eq_ok.1 h0
    obtain ⟨-, rfl⟩ := char_eq_ok.1 h1
    obtain ⟨-, rfl⟩ := char_eq_ok.1 h3
    rcases alt_eq_ok.1 h2 with h2 | ⟨-, h2⟩
    · obtain ⟨rfl, rfl⟩ := allExport_iff.1 h2
      exact ⟨_, rfl, .all⟩
    · unfold constructorSubsetExports at h2
      obtain ⟨l, h4, rfl⟩ := pmap_eq_ok.1 h2
      obtain ⟨v, vs, r3, rfl, h5, h6⟩ := sepNonemptyList_steps h4
      obtain ⟨n, h7, rfl⟩ := pmap_eq_ok.1 h5
      obtain ⟨ns, rfl, rfl, hns⟩ := commaNames_sound h6
      obtain ⟨rfl, hn⟩ := upName_sound h7
      refine ⟨_, ?_, .some (ns := n :: ns) (by simp) (by simpa [hn] using hns)⟩
      simp [commaNames_cons]
  · exact ⟨[], rfl, .none⟩

theorem typeExport_sound {e : ExportSet} (h : typeExport s = .ok e r) : ∃ c, s = c ++ r ∧ ExportText e c := by
  unfold typeExport at h
  simp only [bind_eq_ok, pure_eq_ok] at h
  obtain ⟨n, r1, h1, o, r2, h2, rfl, rfl⟩ := h
  obtain ⟨c, rfl, hc⟩ := constructorExports_sound h2
  obtain ⟨rfl, hn⟩ := upName_sound h1
  exact ⟨n ++ c, by simp, .type_ hn hc⟩

theorem exportItem_sound {e : ExportSet} (h : (functionExport </> typeExport) s = .ok e r) :
    ∃ c, s = c ++ r ∧ ExportText e c := by
  rcases alt_eq_ok.1 h with h | ⟨-, h⟩
  · exact functionExport_sound h
  · exact typeExport_sound h

theorem exportItems_sound {es : List ExportSet}
    (h : Steps (preceded (delimited (opt spacesAndNewlines) (char ',') (opt spacesAndNewlines))
      (functionExport </> typeExport)) s es r) : ∃ c, s = c ++ r ∧ ExportItems es c := by
  induction h with
  | nil s => exact ⟨[], rfl, .nil⟩
  | cons h1 _ ih =>
    obtain ⟨cs, rfl, hcs⟩ := ih
    obtain ⟨_, r1, h2, h3⟩ := preceded_eq_ok.1 h1
    obtain ⟨c, rfl, hc⟩ := exportItem_sound h3
    obtain ⟨_, r2, r3, _, h4, h5, h6⟩ := delimited_eq_ok.1 h2
    obtain ⟨w1, rfl, hw1⟩ := optSpaceNl_sound h4
    obtain ⟨w2, rfl, hw2⟩ := optSpaceNl_sound h6
    obtain ⟨-, rfl⟩ := char_eq_ok.1 h5
    exact ⟨w1 ++ c!"," ++ w2 ++ c ++ cs, by simp, .cons hw1 hw2 hc hcs⟩

theorem fnName_append_ne_nil {n : Name} {m : Str} (h : FnName n m) (t : Str) : m ++ t ≠ [] :=
  (starts_fnName h).append.ne_nil

theorem exportText_ne_nil {e : ExportSet} {c : Str} (h : ExportText e c) (t : Str) : c ++ t ≠ [] := by
  cases h with
  | function h => exact fnName_append_ne_nil h t
  | type_ h _ => obtain ⟨x, y, rfl, -⟩ := h; simp

theorem exports_sound {e : ExportSet} (h : exports s = .ok e r) : ∃ c, s = c ++ r ∧ ExportsText e c := by
  unfold exports at h
  obtain ⟨s1, r1, h1, o2, s2, h2, h3, g2, rfl, hg2⟩ := bracket_of_ok h
  obtain ⟨-, rfl⟩ := char_eq_ok.1 h1
  rcases alt_eq_ok.1 h3 with h3 | ⟨-, h3⟩
  · obtain ⟨rfl, rfl⟩ := allExport_iff.1 h3
    obtain ⟨g1, rfl, hg1⟩ := optGap_of_ok h2 (by simp)
    exact ⟨c!"(" ++ g1 ++ c!".." ++ g2 ++ c!")", by simp, .all hg1 hg2⟩
  · unfold subsetExport at h3
    obtain ⟨l, h4, rfl⟩ := pmap_eq_ok.1 h3
    obtain ⟨v, vs, r3, rfl, h5, h6⟩ := sepNonemptyList_steps h4
    obtain ⟨cs, rfl, hcs⟩ := exportItems_sound h6
    obtain ⟨c, rfl, hc⟩ := exportItem_sound h5
    obtain ⟨g1, rfl, hg1⟩ := optGap_of_ok h2 (exportText_ne_nil hc _)
    exact ⟨c!"(" ++ g1 ++ c ++ cs ++ g2 ++ c!")", by simp, .some hg1 hc hcs hg2⟩

theorem exports_ne_nil {e : ExportSet} {c : Str} (h : ExportsText e c) (t : Str) : c ++ t ≠ [] := by
  cases h <;> simp

/-! ### Module declarations and imports -/

theorem portModuleDeclaration_sound {x : Statement} (h : portModuleDeclaration s = .ok x r) :
    ∃ c, s = c ++ r ∧ StmtSrc False x c := by
  unfold portModuleDeclaration at h
  simp only [bind_eq_ok, pure_eq_ok] at h
  obtain ⟨_, s1, k1, i1, s2, k2, _, s3, k3, i2, s4, k4, ns, s5, k5, i3, s6, k6, _, s7, k7, i4, s8, k8, e, s9, k9,
    rfl, rfl⟩ := h
  obtain ⟨c, rfl, hc⟩ := exports_sound k9
  obtain ⟨-, g4, rfl, hg4⟩ := gapTxt_of_ok k8 (exports_ne_nil hc _)
  obtain ⟨-, rfl⟩ := tag_eq_ok.1 k7
  obtain ⟨-, g3, rfl, hg3⟩ := gapTxt_of_ok k6 (by simp)
  obtain ⟨rfl, hns, hup⟩ := moduleName_sound k5
  obtain ⟨-, g2, rfl, hg2⟩ := gapTxt_of_ok k4 (dotted_append_ne_nil hns hup _)
  obtain ⟨-, rfl⟩ := tag_eq_ok.1 k3
  obtain ⟨-, g1, rfl, hg1⟩ := gapTxt_of_ok k2 (by simp)
  obtain ⟨-, rfl⟩ := tag_eq_ok.1 k1
  exact ⟨_, by simp only [List.append_assoc], .portModule hg1 hg2 hns hup hg3 hg4 hc⟩

theorem effectField_sound {f : Name × Name} (h : effectField s = .ok f r) : ∃ c, s = c ++ r ∧ EffectText f c := by
  unfold effectField at h
  simp only [bind_eq_ok, pure_eq_ok] at h
  obtain ⟨n, s1, k1, _, s2, k2, _, s3, k3, _, s4, k4, u, s5, k5, rfl, rfl⟩ := h
  obtain ⟨rfl, hn⟩ := loName_sound k1
  obtain ⟨w1, rfl, hw1⟩ := optSpaces_sound k2
  obtain ⟨-, rfl⟩ := char_eq_ok.1 k3
  obtain ⟨w2, rfl, hw2⟩ := optSpaces_sound k4
  obtain ⟨rfl, hu⟩ := upName_sound k5
  exact ⟨n ++ w1 ++ c!"=" ++ w2 ++ u, by simp, .mk hn hw1 hw2 hu⟩

theorem effectItems_sound {fs : List (Name × Name)} (h : Steps (preceded (tag c!", ") effectField) s fs r) :
    ∃ c, s = c ++ r ∧ EffectItems fs c := by
  induction h with
  | nil s => exact ⟨[], rfl, .nil⟩
  | cons h1 _ ih =>
    obtain ⟨cs, rfl, hcs⟩ := ih
    obtain ⟨_, r1, h2, h3⟩ := preceded_eq_ok.1 h1
    obtain ⟨c, rfl, hc⟩ := effectField_sound h3
    obtain ⟨-, rfl⟩ := tag_eq_ok.1 h2
    exact ⟨c!", " ++ c ++ cs, by simp, .cons hc hcs⟩

theorem effects_sound {fs : List (Name × Name)} (h : sepList (tag c!", ") effectField s = .ok fs r) :
    ∃ c, s = c ++ r ∧ EffectsText fs c := by
  rcases sepList_steps h with ⟨rfl, rfl, -⟩ | ⟨v, vs, r2, rfl, h4, h5⟩
  · exact ⟨[], rfl, .nil⟩
  · obtain ⟨c, rfl, hc⟩ := effectField_sound h4
    obtain ⟨cs, rfl, hcs⟩ := effectItems_sound h5
    exact ⟨c ++ cs, by simp, .cons hc hcs⟩

theorem effectModuleDeclaration_sound {x : Statement} (h : effectModuleDeclaration s = .ok x r) :
    ∃ c, s = c ++ r ∧ StmtSrc False x c := by
  unfold effectModuleDeclaration at h
  simp only [bind_eq_ok, pure_eq_ok] at h
  obtain ⟨_, s1, k1, i1, s2, k2, _, s3, k3, i2, s4, k4, ns, s5, k5, i3, s6, k6, _, s7, k7, i4, s8, k8, fs, s9, k9,
    i5, s10, k10, _, s11, k11, i6, s12, k12, e, s13, k13, rfl, rfl⟩ := h
  obtain ⟨c, rfl, hc⟩ := exports_sound k13
  obtain ⟨-, g6, rfl, hg6⟩ := gapTxt_of_ok k12 (exports_ne_nil hc _)
  obtain ⟨-, rfl⟩ := tag_eq_ok.1 k11
  obtain ⟨-, g5, rfl, hg5⟩ := gapTxt_of_ok k10 (by simp)
  obtain ⟨_, t1, t2, _, l1, l2, l3⟩ := delimited_eq_ok.1 k9
  obtain ⟨-, rfl⟩ := char_eq_ok.1 l3
  obtain ⟨d, rfl, hd⟩ := effects_sound l2
  obtain ⟨-, rfl⟩ := char_eq_ok.1 l1
  obtain ⟨-, g4, rfl, hg4⟩ := gapTxt_of_ok k8 (by simp)
  obtain ⟨-, rfl⟩ := tag_eq_ok.1 k7
  obtain ⟨-, g3, rfl, hg3⟩ := gapTxt_of_ok k6 (by simp)
  obtain ⟨rfl, hns, hup⟩ := moduleName_sound k5
  obtain ⟨-, g2, rfl, hg2⟩ := gapTxt_of_ok k4 (dotted_append_ne_nil hns hup _)
  obtain ⟨-, rfl⟩ := tag_eq_ok.1 k3
  obtain ⟨-, g1, rfl, hg1⟩ := gapTxt_of_ok k2 (by simp)
  obtain ⟨-, rfl⟩ := tag_eq_ok.1 k1
  exact ⟨_, by simp only [List.append_assoc, List.cons_append, List.nil_append],
    .effectModule hg1 hg2 hns hup hg3 hg4 hd hg5 hg6 hc⟩

theorem moduleDeclaration_sound {x : Statement} (h : moduleDeclaration s = .ok x r) :
    ∃ c, s = c ++ r ∧ StmtSrc False x c := by
  unfold moduleDeclaration at h
  simp only [bind_eq_ok, pure_eq_ok] at h
  obtain ⟨_, s3, k3, i2, s4, k4, ns, s5, k5, i3, s6, k6, _, s7, k7, i4, s8, k8, e, s9, k9, rfl, rfl⟩ := h
  obtain ⟨c, rfl, hc⟩ := exports_sound k9
  obtain ⟨-, g4, rfl, hg4⟩ := gapTxt_of_ok k8 (exports_ne_nil hc _)
  obtain ⟨-, rfl⟩ := tag_eq_ok.1 k7
  obtain ⟨-, g3, rfl, hg3⟩ := gapTxt_of_ok k6 (by simp)
  obtain ⟨rfl, hns, hup⟩ := moduleName_sound k5
  obtain ⟨-, g2, rfl, hg2⟩ := gapTxt_of_ok k4 (dotted_append_ne_nil hns hup _)
  obtain ⟨-, rfl⟩ := tag_eq_ok.1 k3
  exact ⟨_, by simp only [List.append_assoc], .module_ hg2 hns hup hg3 hg4 hc⟩

theorem importStatement_sound {x : Statement} (h : importStatement s = .ok x r) :
    ∃ c, s = c ++ r ∧ StmtSrc False x c := by
  unfold importStatement at h
  simp only [bind_eq_ok, pure_eq_ok] at h
  obtain ⟨_, s1, k1, w, s2, k2, ns, s3, k3, a, s4, k4, e, s5, k5, rfl, rfl⟩ := h
  have he : ∃ d, s4 = d ++ s5 ∧ ExposingText e d := by
    rcases opt_eq_ok.1 k5 with ⟨x, l0, rfl⟩ | ⟨-, rfl, rfl⟩
    · obtain ⟨_, t1, l1, l2⟩ := preceded_eq_ok.1 l0
      obtain ⟨w1, t2, t3, w2, l3, l4, l5⟩ := delimited_eq_ok.1 l1
      obtain ⟨c, rfl, hc⟩ := exports_sound l2
      obtain ⟨rfl, hw2⟩ := spaces_sound l5
      obtain ⟨-, rfl⟩ := tag_eq_ok.1 l4
      obtain ⟨rfl, hw1⟩ := spaces_sound l3
      exact ⟨_, by simp only [List.append_assoc], .some hw1 hw2 hc⟩
    · exact ⟨[], rfl, .none⟩
  have ha : ∃ d, s3 = d ++ s4 ∧ AliasText a d := by
    rcases opt_eq_ok.1 k4 with ⟨x, l0, rfl⟩ | ⟨-, rfl, rfl⟩
    · obtain ⟨_, t1, l1, l2⟩ := preceded_eq_ok.1 l0
      obtain ⟨w1, t2, t3, w2, l3, l4, l5⟩ := delimited_eq_ok.1 l1
      obtain ⟨rfl, hc⟩ := upName_sound l2
      obtain ⟨rfl, hw2⟩ := spaces_sound l5
      obtain ⟨-, rfl⟩ := tag_eq_ok.1 l4
      obtain ⟨rfl, hw1⟩ := spaces_sound l3
      exact ⟨_, by simp only [List.append_assoc], .some hw1 hw2 hc⟩
    · exact ⟨[], rfl, .none⟩
  obtain ⟨d, rfl, hd⟩ := he
  obtain ⟨c, rfl, hc⟩ := ha
  obtain ⟨rfl, hns, hup⟩ := moduleName_sound k3
  obtain ⟨rfl, hw⟩ := spaces_sound k2
  obtain ⟨-, rfl⟩ := tag_eq_ok.1 k1
  exact ⟨_, by simp only [List.append_assoc], .import_ hw hns hup hc hd⟩

/-! ### Types and ports -/

theorem typeAliasDeclaration_sound {x : Statement} (h : typeAliasDeclaration s = .ok x r) :
    ∃ c, s = c ++ r ∧ StmtSrc False x c := by
  unfold typeAliasDeclaration at h
  simp only [bind_eq_ok, pure_eq_ok] at h
  obtain ⟨_, s1, k1, w1, s2, k2, _, s3, k3, w2, s4, k4, t, s5, k5, w3, s6, k6, _, s7, k7, i, s8, k8, u, s9, k9,
    rfl, rfl⟩ := h
  obtain ⟨d, rfl, hd⟩ := typeAnnotation_sound k9
  obtain ⟨-, g, rfl, hg⟩ := gapTxt_of_ok k8 (tySrc_ne_nil hd trivial)
  obtain ⟨-, rfl⟩ := char_eq_ok.1 k7
  obtain ⟨rfl, hw3⟩ := spaces_sound k6
  obtain ⟨c, rfl, hc⟩ := type_sound k5
  obtain ⟨rfl, hw2⟩ := spaces_sound k4
  obtain ⟨-, rfl⟩ := tag_eq_ok.1 k3
  obtain ⟨rfl, hw1⟩ := spaces_sound k2
  obtain ⟨-, rfl⟩ := tag_eq_ok.1 k1
  exact ⟨_, by simp only [List.append_assoc, List.cons_append, List.nil_append], .typeAlias hw1 hw2 hc hw3 hg hd⟩

theorem typeConstructor_sound' {ind : Nat} {t : Ty} (h : typeConstructor ind s = .ok t r) :
    ∃ ns ts c, t = .TypeConstructor ns ts ∧ s = c ++ r ∧ TySrc ind (.ty (.TypeConstructor ns ts)) c := by
  obtain ⟨ns, ts, c, rfl, rfl, h1, h2, h3⟩ := typeConstructor_sound h
  exact ⟨ns, ts, _, rfl, rfl, .con h1 h2 h3⟩

theorem constructorItems_sound {ind : Nat} {us : List Ty}
    (h : Steps (preceded (delimited (gap ind .GTE) (char '|') spaces) (typeConstructor ind)) s us r) :
    ∃ c, s = c ++ r ∧ ConstructorItems ind us c := by
  induction h with
  | nil s => exact ⟨[], rfl, .nil⟩
  | cons h1 _ ih =>
    obtain ⟨cs, rfl, hcs⟩ := ih
    obtain ⟨_, r1, h2, h3⟩ := preceded_eq_ok.1 h1
    obtain ⟨ns, ts, c, rfl, rfl, hc⟩ := typeConstructor_sound' h3
    obtain ⟨i, r2, r3, w, h4, h5, h6⟩ := delimited_eq_ok.1 h2
    obtain ⟨rfl, hw⟩ := spaces_sound h6
    obtain ⟨-, rfl⟩ := char_eq_ok.1 h5
    obtain ⟨-, g, rfl, hg⟩ := gapTxt_of_ok h4 (by simp)
    exact ⟨g ++ c!"|" ++ w ++ c ++ cs, by simp, .cons hg hw hc hcs⟩

theorem typeDeclaration_sound {x : Statement} (h : typeDeclaration 0 s = .ok x r) :
    ∃ c, s = c ++ r ∧ StmtSrc False x c := by
  unfold typeDeclaration at h
  simp only [bind_eq_ok, pure_eq_ok] at h
  obtain ⟨_, s1, k1, w, s2, k2, t, s3, k3, i, s4, k4, _, s5, k5, i2, s6, k6, l, s7, k7, rfl, rfl⟩ := h
  obtain ⟨v, vs, s8, rfl, k8, k9⟩ := sepNonemptyList_steps k7
  obtain ⟨ds, rfl, hds⟩ := constructorItems_sound k9
  obtain ⟨ns, ts, d, rfl, rfl, hd⟩ := typeConstructor_sound' k8
  obtain ⟨-, g2, rfl, hg2⟩ := gapTxt_of_ok k6 (tySrc_ne_nil hd trivial)
  obtain ⟨-, rfl⟩ := char_eq_ok.1 k5
  obtain ⟨-, g1, rfl, hg1⟩ := gapTxt_of_ok k4 (by simp)
  obtain ⟨c, rfl, hc⟩ := type_sound k3
  obtain ⟨rfl, hw⟩ := spaces_sound k2
  obtain ⟨-, rfl⟩ := tag_eq_ok.1 k1
  exact ⟨_, by simp only [List.append_assoc, List.cons_append, List.nil_append], .type_ hw hc hg1 hg2 hd hds⟩

theorem portTypeDeclaration_sound {x : Statement} (h : portTypeDeclaration s = .ok x r) :
    ∃ c, s = c ++ r ∧ StmtSrc False x c := by
  unfold portTypeDeclaration at h
  simp only [bind_eq_ok, pure_eq_ok] at h
  obtain ⟨_, s1, k1, w, s2, k2, n, s3, k3, w2, s4, k4, _, s5, k5, i, s6, k6, t, s7, k7, rfl, rfl⟩ := h
  obtain ⟨c, rfl, hc⟩ := typeAnnotation_sound k7
  obtain ⟨-, g, rfl, hg⟩ := gapTxt_of_ok k6 (tySrc_ne_nil hc trivial)
  obtain ⟨-, rfl⟩ := char_eq_ok.1 k5
  obtain ⟨rfl, hw2⟩ := spaces_sound k4
  obtain ⟨rfl, hn⟩ := loName_sound k3
  obtain ⟨rfl, hw⟩ := spaces_sound k2
  obtain ⟨-, rfl⟩ := tag_eq_ok.1 k1
  exact ⟨_, by simp only [List.append_assoc, List.cons_append, List.nil_append], .portType hw hn hw2 hg hc⟩

theorem portArgs_sound {ns : List Name} (h : Steps (preceded spaces loName) s ns r) :
    ∃ c, s = c ++ r ∧ PortArgs ns c := by
  induction h with
  | nil s => exact ⟨[], rfl, .nil⟩
  | @cons n _ _ _ _ h1 _ ih =>
    obtain ⟨cs, rfl, hcs⟩ := ih
    obtain ⟨w, r1, h2, h3⟩ := preceded_eq_ok.1 h1
    obtain ⟨rfl, hn⟩ := loName_sound h3
    obtain ⟨rfl, hw⟩ := spaces_sound h2
    exact ⟨_, by simp only [List.append_assoc], .cons hw hn hcs⟩

theorem portDeclaration_sound {x : Statement} (h : portDeclaration s = .ok x r) :
    ∃ c, s = c ++ r ∧ StmtSrc False x c := by
  unfold portDeclaration at h
  simp only [bind_eq_ok, pure_eq_ok] at h
  obtain ⟨_, s1, k1, w, s2, k2, n, s3, k3, as, s4, k4, w2, s5, k5, _, s6, k6, i, s7, k7, e, s8, k8, rfl, rfl⟩ := h
  obtain ⟨c, rfl, hc⟩ := eSound_expression k8
  obtain ⟨-, g, rfl, hg⟩ := gapTxt_of_ok k7 (src_ne_nil hc trivial _)
  obtain ⟨-, rfl⟩ := char_eq_ok.1 k6
  obtain ⟨rfl, hw2⟩ := spaces_sound k5
  obtain ⟨cs, rfl, hcs⟩ := portArgs_sound (many0_steps k4)
  obtain ⟨rfl, hn⟩ := loName_sound k3
  obtain ⟨rfl, hw⟩ := spaces_sound k2
  obtain ⟨-, rfl⟩ := tag_eq_ok.1 k1
  exact ⟨_, by simp only [List.append_assoc, List.cons_append, List.nil_append], .port hw hn hcs hw2 hg hc⟩

/-! ### Infix declarations and comments -/

theorem foldl_decimal (d : Str) (n : Nat) :
    d.foldl (fun acc c => 10 * acc + (c.toNat - '0'.toNat)) n = n * 10 ^ d.length + decimal d := by
  induction d generalizing n with
  | nil => simp [decimal]
  | cons c d ih =>
    simp only [List.foldl_cons, ih, decimal, List.length_cons, Nat.pow_succ]
    have : '0'.toNat = 48 := rfl
    rw [this, Nat.add_mul, Nat.add_assoc]
    congr 1
    rw [Nat.mul_comm 10 n, Nat.mul_assoc, Nat.mul_comm 10]

theorem parseI64_iff {d : Str} {v : Int} : parseI64 d = some v ↔ v = (decimal d : Nat) ∧ decimal d ≤ i64Max := by
  unfold parseI64
  simp only [foldl_decimal, Nat.zero_mul, Nat.zero_add, i64Max]
  split <;> simp_all [eq_comm]

/-- The keyword parser of infix declarations. -/
theorem assoc_iff {a : Assoc} :
    (value Assoc.L (tag c!"infixl") </> value Assoc.R (tag c!"infixr") </> value Assoc.N (tag c!"infix")) s = .ok a r ↔
      s = assocText a ++ r ∧ (a = .N → Next (fun c => c ≠ 'l' ∧ c ≠ 'r') r) := by
  simp only [alt_apply]
  have e : ∀ k : Str, tag k s = .err ∨ ∃ u, s = k ++ u := by
    intro k
    unfold tag
    cases h : stripPrefix k s with
    | none => exact .inl rfl
    | some u => exact .inr ⟨u, stripPrefix_eq_some.1 h⟩
  rcases e c!"infixl" with h1 | ⟨u, rfl⟩
  · rcases e c!"infixr" with h2 | ⟨u, rfl⟩
    · simp only [value_apply, h1, h2]
      rcases e c!"infix" with h3 | ⟨u, rfl⟩
      · simp only [h3, Res.andThen, Res.orElse, reduceCtorEq, false_iff]
        rintro ⟨rfl, -⟩
        cases a with
        | L => rw [show assocText .L = c!"infixl" from rfl, tag_append] at h1; cases h1
        | R => rw [show assocText .R = c!"infixr" from rfl, tag_append] at h2; cases h2
        | N => rw [show assocText .N = c!"infix" from rfl, tag_append] at h3; cases h3
      · simp only [tag_append, Res.andThen, Res.orElse, Res.ok.injEq]
        have hn : Next (fun c => c ≠ 'l' ∧ c ≠ 'r') u := by
          rintro c v rfl
          constructor
          · rintro rfl
            have : tag c!"infixl" (c!"infixl" ++ v) = .err := h1
            rw [tag_append] at this; cases this
          · rintro rfl
            have : tag c!"infixr" (c!"infixr" ++ v) = .err := h2
            rw [tag_append] at this; cases this
        constructor
        · rintro ⟨rfl, rfl⟩
          exact ⟨rfl, fun _ => hn⟩
        · rintro ⟨h, -⟩
          cases a with
          | L =>
            have : u = 'l' :: r := by simpa [assocText] using h
            exact absurd rfl (hn _ _ this).1
          | R =>
            have : u = 'r' :: r := by simpa [assocText] using h
            exact absurd rfl (hn _ _ this).2
          | N => exact ⟨rfl, by simpa [assocText] using h⟩
    · simp only [value_apply, h1, tag_append, Res.andThen, Res.orElse, Res.ok.injEq]
      cases a with
      | L => simp [assocText]
      | R => simp [assocText]
      | N =>
        simp only [reduceCtorEq, false_and, false_iff, not_and]
        rintro h
        have : r = 'r' :: u := by simpa [assocText] using h.symm
        intro h'
        exact absurd rfl (h' trivial _ _ this).2
  · simp only [value_apply, tag_append, Res.andThen, Res.orElse, Res.ok.injEq]
    cases a with
    | L => simp [assocText]
    | R => simp [assocText]
    | N =>
      simp only [reduceCtorEq, false_and, false_iff, not_and]
      rintro h
      have : r = 'l' :: u := by simpa [assocText] using h.symm
      intro h'
      exact absurd rfl (h' trivial _ _ this).1

theorem infixDeclaration_sound {x : Statement} (h : infixDeclaration s = .ok x r) :
    ∃ c, s = c ++ r ∧ StmtSrc False x c := by
  unfold infixDeclaration at h
  simp only [bind_eq_ok, pure_eq_ok] at h
  obtain ⟨a, s1, k1, w1, s2, k2, v, s3, k3, w2, s4, k4, n, s5, k5, rfl, rfl⟩ := h
  obtain ⟨d, k6, k7⟩ := mapRes_eq_ok.1 k3
  obtain ⟨rfl, hv⟩ := parseI64_iff.1 k7
  have hn : s4 = n ++ s5 ∧ (LoName n ∨ Operator n) := by
    rcases alt_eq_ok.1 k5 with k5 | ⟨-, k5⟩
    · exact ⟨(loName_sound k5).1, .inl (loName_sound k5).2⟩
    · obtain ⟨h1, h2, -⟩ := operator_iff.1 k5
      exact ⟨h1, .inr h2⟩
  obtain ⟨rfl, hn⟩ := hn
  obtain ⟨rfl, hw2⟩ := spaces_sound k4
  obtain ⟨rfl, hd, -⟩ := digit_iff.1 k6
  obtain ⟨rfl, hw1⟩ := spaces_sound k2
  obtain ⟨rfl, -⟩ := assoc_iff.1 k1
  exact ⟨_, by simp only [List.append_assoc], .infix_ hw1 hd hv hw2 hn⟩

/-- The first `-}` after `t` is the one right after it. -/
theorem noClose_iff {t r : Str} :
    (∀ a b, t ++ c!"-}" ++ r = a ++ c!"-}" ++ b → t.length ≤ a.length) ↔ ∀ a b, t ≠ a ++ c!"-}" ++ b := by
  constructor
  · rintro h a b rfl
    have := h a (b ++ c!"-}" ++ r) (by simp)
    simp at this
    omega
  · intro h a b e
    induction t generalizing a with
    | nil => simp
    | cons x t ih =>
      cases a with
      | nil =>
        exfalso
        simp only [List.cons_append, List.nil_append, List.append_assoc, List.cons.injEq] at e
        obtain ⟨rfl, e⟩ := e
        cases t with
        | nil => simp at e
        | cons y t =>
          simp only [List.cons_append, List.cons.injEq] at e
          obtain ⟨rfl, e⟩ := e
          exact h [] t (by simp)
      | cons y a =>
        simp only [List.cons_append, List.cons.injEq] at e
        have := ih (fun a b e' => h (x :: a) b (by simp [e'])) a e.2
        simpa using this

theorem multiLineComment_iff' {x : Statement} :
    multiLineComment s = .ok x r ↔ ∃ t, x = .Comment t ∧ s = c!"{-" ++ t ++ c!"-}" ++ r ∧
      ∀ a b, t ≠ a ++ c!"-}" ++ b := by
  rw [multiLineComment_iff]
  simp only [noClose_iff]

/-- Each statement the parser reads is a line comment, up to the end of its line, or a text of the
concrete syntax. -/
theorem statement_sound {x : Statement} (h : statement s = .ok x r) :
    (∃ t, x = .Comment t ∧ s = '-' :: '-' :: t ++ r ∧ '\n' ∉ t ∧ Next (· = '\n') r) ∨
    ∃ c, s = c ++ r ∧ StmtSrc False x c := by
  unfold statement at h
  rcases alt_eq_ok.1 h with h | ⟨-, h⟩
  · exact .inr (portModuleDeclaration_sound h)
  rcases alt_eq_ok.1 h with h | ⟨-, h⟩
  · exact .inr (effectModuleDeclaration_sound h)
  rcases alt_eq_ok.1 h with h | ⟨-, h⟩
  · exact .inr (moduleDeclaration_sound h)
  rcases alt_eq_ok.1 h with h | ⟨-, h⟩
  · exact .inr (importStatement_sound h)
  rcases alt_eq_ok.1 h with h | ⟨-, h⟩
  · exact .inr (typeAliasDeclaration_sound h)
  rcases alt_eq_ok.1 h with h | ⟨-, h⟩
  · exact .inr (typeDeclaration_sound h)
  rcases alt_eq_ok.1 h with h | ⟨-, h⟩
  · exact .inr (portTypeDeclaration_sound h)
  rcases alt_eq_ok.1 h with h | ⟨-, h⟩
  · exact .inr (portDeclaration_sound h)
  rcases alt_eq_ok.1 h with h | ⟨-, h⟩
  · obtain ⟨f, h0, rfl⟩ := pmap_eq_ok.1 h
    obtain ⟨c, rfl, hc⟩ := functionF_sound eSound_expression h0
    exact .inr ⟨c, rfl, .function hc⟩
  rcases alt_eq_ok.1 h with h | ⟨-, h⟩
  · exact .inr (infixDeclaration_sound h)
  rcases alt_eq_ok.1 h with h | ⟨-, h⟩
  · exact .inl (lineCommentStatement_iff.1 h)
  · obtain ⟨t, rfl, rfl, ht⟩ := multiLineComment_iff'.1 h
    exact .inr ⟨_, rfl, .block ht⟩

/-! ### Files -/

theorem stmts_of_steps {xs : List Statement} {w : Str}
    (h : Steps (preceded multispace statement) s xs w) (hw : Whites w) : Stmts False false xs s := by
  induction h with
  | nil s => exact .last hw
  | @cons x s1 xs s r h1 _ ih =>
    obtain ⟨v, r1, h2, h3⟩ := preceded_eq_ok.1 h1
    obtain ⟨rfl, hv, hv', -⟩ := multispace_iff.1 h2
    refine .sep hv' hv (fun h => h.elim) ?_
    rcases statement_sound h3 with ⟨t, rfl, rfl, h4, h5⟩ | ⟨c, rfl, hc⟩
    · exact .line h4 h5 (ih hw)
    · exact .stmt hc (ih hw)

/-- Every accepted text is a file with the statements that are returned. -/
theorem file_sound {xs : List Statement} (h : file s = .ok xs r) : r = [] ∧ FileSrc False xs s := by
  unfold file statements at h
  obtain ⟨r1, _, h1, h2⟩ := terminated_eq_ok.1 h
  have hr : r1 = [] ∧ r = [] := by
    unfold eof at h2
    cases r1 with
    | nil => simp only [Res.ok.injEq] at h2; exact ⟨rfl, h2.2.symm⟩
    | cons => cases h2
  obtain ⟨rfl, rfl⟩ := hr
  obtain ⟨w1, s1, s2, w2, h3, h4, h5⟩ := delimited_eq_ok.1 h1
  rw [sepNonemptyList_multispace0] at h4
  obtain ⟨rfl, hw1, -⟩ := multispace0_iff.1 h3
  obtain ⟨rfl, hw2, -⟩ := multispace0_iff.1 h5
  obtain ⟨x, xs, r2, rfl, h6, h7⟩ := sepNonemptyList_steps h4
  rw [List.append_nil] at h7
  have h8 := stmts_of_steps h7 hw2
  refine ⟨rfl, w1, s1, rfl, hw1, ?_⟩
  rcases statement_sound h6 with ⟨t, rfl, rfl, h9, h10⟩ | ⟨c, rfl, hc⟩
  · exact .line h9 h10 h8
  · exact .stmt hc h8

end ElmParser
