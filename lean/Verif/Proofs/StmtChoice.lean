import Verif.Proofs.StmtOrder
import Verif.Proofs.Choice

/-! Which alternatives of `statement` can answer on the same text. -/
namespace ElmParser
open Spec

variable {s r : Str}

theorem spaces_next {v t : Str} (h : spaces s = .ok v t) : Next (fun c => ¬ IdentChar c) s := by
  obtain ⟨rfl, hne, hw⟩ := spaces_sound h
  cases v with
  | nil => exact absurd rfl hne
  | cons x v =>
    rw [List.cons_append, next_cons, hw x (by simp)]
    decide

/-- What comes after the name of a function is not the rest of an effect module. -/
theorem function_effect {f : Function} (h : function 0 s = .ok f r) :
    ∃ n m t, FnName n m ∧ s = m ++ t ∧ Next (fun c => ¬ IdentChar c) t ∧
      ∀ j u, gap 0 .GT t = .ok j u → ∀ w x, tag c!"module" u = .ok w x → NoGap x := by
  unfold function functionF at h
  simp only [bind_eq_ok] at h
  obtain ⟨o, s1, k1, df, s2, k2, -⟩ := h
  have sep : ∀ {w t u : Str} {x : Char}, spaces t = .ok w (x :: u) → x ∉ [' ', '\n', '-', 'm'] →
      ∀ j v, gap 0 .GT t = .ok j v → ∀ w x, tag c!"module" v = .ok w x → NoGap x := by
    intro w t u x hs hx j v k1 y z k2
    simp only [List.mem_cons, List.not_mem_nil, or_false, not_or] at hx
    obtain ⟨rfl, hw⟩ := spaces_sound hs
    have := (spacesTxt_gap hw 0 .GT).gap (r := x :: u) (noGap_of_ne ⟨hx.1, hx.2.1, hx.2.2.1⟩)
    obtain ⟨-, rfl⟩ := ok_inj this k1
    rw [tag_cons_ne hx.2.2.2] at k2
    cases k2
  rcases opt_eq_ok.1 k1 with ⟨sg, k3, -⟩ | ⟨-, -, rfl⟩
  · obtain ⟨t1, _, k4, -⟩ := terminated_eq_ok.1 k3
    unfold functionSignature at k4
    simp only [bind_eq_ok] at k4
    obtain ⟨n, t2, l1, w, t3, l2, _, t4, l3, -⟩ := k4
    obtain ⟨m, rfl, hm⟩ := functionNameOrOp_sound l1
    obtain ⟨-, rfl⟩ := char_eq_ok.1 l3
    exact ⟨n, m, t2, hm, rfl, spaces_next l2, sep l2 (by decide)⟩
  · unfold functionDefinitionF at k2
    simp only [bind_eq_ok] at k2
    obtain ⟨n, t1, l1, as, t2, l2, w, t3, l3, _, t4, l4, -⟩ := k2
    obtain ⟨m, rfl, hm⟩ := functionNameOrOp_sound l1
    obtain ⟨-, rfl⟩ := char_eq_ok.1 l4
    cases many0_steps l2 with
    | nil => exact ⟨n, m, t1, hm, rfl, spaces_next l3, sep l3 (by decide)⟩
    | cons h1 _ =>
      obtain ⟨_, u1, l5, l6⟩ := preceded_eq_ok.1 h1
      refine ⟨n, m, t1, hm, rfl, spaces_next l5, ?_⟩
      intro j v q1 y z q2
      obtain ⟨rfl, hw⟩ := spaces_sound l5
      obtain ⟨c, e, hc⟩ := termF_sound eSound_expression l6
      have hn : NoGap u1 := by rw [e]; exact (src_starts hc trivial).noGap
      have := (spacesTxt_gap hw 0 .GT).gap hn
      obtain ⟨-, rfl⟩ := ok_inj this q1
      obtain ⟨-, e⟩ := tag_eq_ok.1 q2
      rcases z with _ | ⟨a, z⟩
      · exact noGap_nil
      · by_cases ha : IdentChar a
        · exact ident_noGap ha
        · rw [e, termF_keyword (by decide) (next_cons.2 ha)] at l6
          cases l6

/-- Where there is a function, none of the first eight alternatives answers. -/
theorem function_notDecl {f : Function} (h : function 0 s = .ok f r) : NotDecl s := by
  obtain ⟨n, m, t, hn, rfl, ht, he⟩ := function_effect h
  cases hn with
  | op ho => exact notDecl_head (by decide)
  | lo hl =>
    have key : ∀ k ∈ keywords, ∀ v u, tag k (n ++ t) = .ok v u → NoGap u := fun k hk v u h => keyword_name hk hl ht h
    exact ⟨portModule_err fun v u k1 j x k2 => (noGap_gap (key _ (by decide) _ _ k1) k2).elim,
      effect_not_module hl ht he, module_err (key _ (by decide)), import_err (key _ (by decide)),
      typeAlias_err (key _ (by decide)), typeDecl_err (key _ (by decide)), portType_err (key _ (by decide)),
      port_err (key _ (by decide))⟩

theorem portModule_of_name {v w n t1 t2 t3 t4 x : Str} (h1 : tag c!"port" s = .ok v t1) (h2 : spaces t1 = .ok w t2)
    (h3 : loName t2 = .ok n t3) (h4 : spaces t3 = .ok x t4) : portModuleDeclaration s = .err := by
  obtain ⟨-, rfl⟩ := tag_eq_ok.1 h1
  obtain ⟨rfl, hw⟩ := spaces_sound h2
  obtain ⟨rfl, hn⟩ := loName_sound h3
  exact port_not_module hw hn (spaces_next h4)

theorem portType_not_module {x : Statement} (h : portTypeDeclaration s = .ok x r) : portModuleDeclaration s = .err := by
  unfold portTypeDeclaration at h
  simp only [bind_eq_ok] at h
  obtain ⟨_, s1, k1, _, s2, k2, _, s3, k3, _, s4, k4, -⟩ := h
  exact portModule_of_name k1 k2 k3 k4

theorem portDecl_not_module {x : Statement} (h : portDeclaration s = .ok x r) : portModuleDeclaration s = .err := by
  unfold portDeclaration at h
  simp only [bind_eq_ok] at h
  obtain ⟨_, s1, k1, _, s2, k2, _, s3, k3, as, s4, k4, _, s5, k5, -⟩ := h
  cases many0_steps k4 with
  | nil => exact portModule_of_name k1 k2 k3 k5
  | cons h1 _ =>
    obtain ⟨_, u1, l5, -⟩ := preceded_eq_ok.1 h1
    exact portModule_of_name k1 k2 k3 l5

theorem portDecl_not_type {x : Statement} (h : portDeclaration s = .ok x r) : portTypeDeclaration s = .err := by
  refine err_of cons_portTypeDeclaration fun v u e => ?_
  unfold portTypeDeclaration at e
  simp only [bind_eq_ok] at e
  obtain ⟨_, t1, l1, _, t2, l2, _, t3, l3, _, t4, l4, _, t5, l5, -⟩ := e
  unfold portDeclaration at h
  simp only [bind_eq_ok] at h
  obtain ⟨_, s1, k1, _, s2, k2, _, s3, k3, as, s4, k4, _, s5, k5, _, s6, k6, -⟩ := h
  obtain ⟨-, rfl⟩ := ok_inj k1 l1
  obtain ⟨-, rfl⟩ := ok_inj k2 l2
  obtain ⟨-, rfl⟩ := ok_inj k3 l3
  obtain ⟨-, rfl⟩ := char_eq_ok.1 l5
  cases many0_steps k4 with
  | nil =>
    obtain ⟨-, rfl⟩ := ok_inj k5 l4
    rw [char_cons_ne _ (by decide)] at k6
    cases k6
  | cons h1 _ =>
    obtain ⟨_, u1, q1, q2⟩ := preceded_eq_ok.1 h1
    obtain ⟨-, rfl⟩ := ok_inj q1 l4
    rw [loName_err_head (by decide) (by decide)] at q2
    cases q2

theorem typeDecl_not_alias {x : Statement} (h : typeDeclaration 0 s = .ok x r) : typeAliasDeclaration s = .err := by
  unfold typeDeclaration at h
  simp only [bind_eq_ok] at h
  obtain ⟨_, s1, k1, w, s2, k2, u, s3, k3, j, s4, k4, _, s5, k5, -⟩ := h
  obtain ⟨-, rfl⟩ := char_eq_ok.1 k5
  obtain ⟨-, g, rfl, hg⟩ := gapTxt_of_ok k4 (by simp)
  obtain ⟨c, rfl, hc⟩ := type_sound k3
  obtain ⟨rfl, hw⟩ := spaces_sound k2
  obtain ⟨-, rfl⟩ := tag_eq_ok.1 k1
  exact type_not_alias hw hc hg

end ElmParser
