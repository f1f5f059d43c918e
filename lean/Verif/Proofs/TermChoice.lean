import Verif.Proofs.ExprComplete
import Verif.Proofs.Choice

/-! Which alternatives of `term`, `expression`, `type_` and `let` entries can answer on the same
text. -/
namespace ElmParser
open Spec

variable {s r : Str} {ind : Nat}

/-- A parser that does not fail answers. -/
theorem ok_of_ne {α : Type} {p : Parser α} (hp : ∀ k, Cons k p) (h : p s ≠ .err) : ∃ v r, p s = .ok v r := by
  rcases err_or_ok hp s with e | ⟨v, t, e, -⟩
  · exact absurd e h
  · exact ⟨v, t, e⟩

/-! ### Expressions -/

/-- What is read in parentheses is not an operator in parentheses. -/
theorem parens_not_variable {e : Expr} (h : parens expression ind s = .ok e r) : variableP s = .err := by
  unfold parens at h
  obtain ⟨a, r1, r2, b, h1, h2, h3⟩ := delimited_eq_ok.1 h
  obtain ⟨-, rfl⟩ := char_eq_ok.1 h1
  obtain ⟨c, rfl, hc⟩ := eSound_expression h2
  rw [variableP_paren]
  exact op_err_starts (src_starts hc trivial)

theorem tuple_not_variable {e : Expr} (h : tuple expression ind s = .ok e r) : variableP s = .err := by
  unfold tuple at h
  obtain ⟨es, h0, rfl⟩ := pmap_eq_ok.1 h
  obtain ⟨a, r1, r2, b, h1, h2, h3⟩ := delimited_eq_ok.1 h0
  obtain ⟨-, rfl⟩ := char_eq_ok.1 h1
  obtain ⟨-, rfl⟩ := char_eq_ok.1 h3
  rw [variableP_paren]
  rcases sepList_steps h2 with ⟨rfl, rfl, -⟩ | ⟨v, vs, r2, rfl, h4, h5⟩
  · exact op_err_white (.inr rfl)
  · obtain ⟨w1, c, w2, rfl, hw1, hc, hw2, hrc⟩ := comp_sound eSound_expression h4
    simp only [List.append_assoc]
    exact op_err_open hw1 (src_starts hc trivial)

/-- The text of a record update, as far as the bar. -/
theorem recordUpdate_text {e : Expr} (h : recordUpdate expression ind s = .ok e r) :
    ∃ n g1 g2 t, s = '{' :: (g1 ++ (n ++ (g2 ++ '|' :: t))) ∧ OptGapTxt ind .GTE g1 ∧ LoName n ∧
      OptGapTxt ind .GTE g2 := by
  unfold recordUpdate at h
  obtain ⟨a, r1, r2, b, h1, h2, -⟩ := delimited_eq_ok.1 h
  simp only [bind_eq_ok] at h2
  obtain ⟨n, s1, k1, i, s2, k2, _, s3, k3, -⟩ := h2
  obtain ⟨_, s0, l1, l2⟩ := preceded_eq_ok.1 h1
  obtain ⟨-, rfl⟩ := char_eq_ok.1 l1
  obtain ⟨-, rfl⟩ := char_eq_ok.1 k3
  obtain ⟨rfl, hn⟩ := loName_sound k1
  obtain ⟨g2, rfl, hg2⟩ := optGap'_of_ok k2 (by simp)
  obtain ⟨g1, rfl, hg1⟩ := optGap'_of_ok l2 (by
    obtain ⟨c, t, rfl, -⟩ := loName_head hn
    simp)
  exact ⟨n, g1, g2, s3, rfl, hg1, hn, hg2⟩

theorem record_err_bar {n g1 g2 t : Str} (h1 : OptGapTxt ind .GTE g1) (hn : LoName n) (h2 : OptGapTxt ind .GTE g2) :
    record expression ind ('{' :: (g1 ++ (n ++ (g2 ++ '|' :: t)))) = .err := by
  obtain ⟨o1, e1⟩ := h1.opt (r := n ++ (g2 ++ '|' :: t)) (loName_noGap hn)
  obtain ⟨o2, e2⟩ := h2.opt (r := '|' :: t) (noGap_of_ne (by decide))
  have e0 := loName_complete hn (optGap_ident (r := t) (x := '|') h2 (by decide))
  have hf : recordField expression ind (n ++ (g2 ++ '|' :: t)) = .err := by
    unfold recordField
    rw [separatedPair_apply, e0, andThen_ok, delimited_apply, e2, andThen_ok, char_cons_ne _ (by decide)]
    rfl
  have hl : sepList (commaSep ind) (recordField expression ind) (n ++ (g2 ++ '|' :: t)) =
      .ok [] (n ++ (g2 ++ '|' :: t)) := by
    unfold sepList
    rw [hf]
  have hx : char '}' (n ++ (g2 ++ '|' :: t)) = .err := by
    obtain ⟨c, t', rfl, hc⟩ := loName_head hn
    refine char_cons_ne _ ?_
    rintro rfl
    revert hc; decide
  unfold record
  rw [pmap_apply, delimited_apply, preceded_apply, char_cons, andThen_ok, e1, andThen_ok, hl, andThen_ok,
    terminated_apply, opt_none (gap_none (loName_noGap hn) _ _), andThen_ok, hx]
  rfl

theorem update_not_record {e : Expr} (h : recordUpdate expression ind s = .ok e r) : record expression ind s = .err := by
  obtain ⟨n, g1, g2, t, rfl, h1, hn, h2⟩ := recordUpdate_text h
  exact record_err_bar h1 hn h2

theorem update_not_simplified {e : Expr} (h : recordUpdate expression ind s = .ok e r) : simplifiedRecord s = .err := by
  obtain ⟨n, g1, g2, t, rfl, h1, hn, h2⟩ := recordUpdate_text h
  exact simplifiedRecord_err_sep h1 hn h2 (.inl rfl)

/-- `{}` is all that is both a record and a simplified record, and it is read the same way. -/
theorem record_simplified {e e' : Expr} {r' : Str} (h : record expression ind s = .ok e r)
    (h' : simplifiedRecord s = .ok e' r') : e = e' ∧ r = r' := by
  unfold record at h
  obtain ⟨fs, h0, rfl⟩ := pmap_eq_ok.1 h
  obtain ⟨s1, r1, h1, o2, s2, h2, h3, g2, rfl, hg2⟩ := bracket_of_ok h0
  obtain ⟨-, rfl⟩ := char_eq_ok.1 h1
  rcases sepList_steps h3 with ⟨rfl, rfl, -⟩ | ⟨v, vs, r2, rfl, h4, h5⟩
  · obtain ⟨g, rfl, hg⟩ := twoGaps (by decide) (by decide) h2 hg2
    cases g with
    | nil =>
      have : simplifiedRecord ('{' :: ([] ++ '}' :: r)) = .ok (.Record []) r := by
        unfold simplifiedRecord
        rw [pmap_apply, delimited_apply, char_cons, andThen_ok]
        have hf : simplifiedField ('}' :: r) = .err := by
          unfold simplifiedField
          have := multispace0_ok (w := []) (r := '}' :: r) (by simp [Whites]) (next_cons.2 (by decide))
          simp only [List.nil_append] at this
          rw [bind_apply, this, andThen_ok, bind_apply, loName_err_head (by decide) (by decide)]
          rfl
        rw [List.nil_append, (sepList_iff (fun k => cons_char k ',') cons_simplifiedField).2 (.inl ⟨rfl, rfl, hf⟩),
          andThen_ok, char_cons]
        rfl
      rw [this] at h'
      simpa using h'
    | cons z g =>
      exfalso
      have hz : z ≠ '}' := by
        rcases hg with hg | ⟨i, hg⟩
        · cases hg
        · obtain ⟨c, u, e, hc⟩ := hg.cons
          obtain ⟨rfl, -⟩ := List.cons.inj e
          rintro rfl
          revert hc; simp
      obtain ⟨w, u, e, hw, hu, h⟩ := gap_whites (x := '}') (t := r) hg (by decide)
      have hf : simplifiedField (z :: g ++ '}' :: r) = .err := by
        rw [e]
        unfold simplifiedField
        rw [bind_apply, multispace0_ok hw hu, andThen_ok, bind_apply]
        rcases h with rfl | ⟨v', rfl⟩ <;> rw [loName_err_head (by decide) (by decide)] <;> rfl
      unfold simplifiedRecord at h'
      rw [pmap_apply, delimited_apply, char_cons, andThen_ok,
        (sepList_iff (fun k => cons_char k ',') cons_simplifiedField).2 (.inl ⟨rfl, rfl, hf⟩), andThen_ok,
        List.cons_append, char_cons_ne _ hz] at h'
      cases h'
  · exfalso
    unfold recordField at h4
    obtain ⟨r1, b, r2, k1, k2, k3⟩ := separatedPair_eq_ok.1 h4
    obtain ⟨rfl, hn⟩ := loName_sound k1
    obtain ⟨_, r3, r4, _, k4, k5, k6⟩ := delimited_eq_ok.1 k2
    obtain ⟨-, rfl⟩ := char_eq_ok.1 k5
    obtain ⟨g1, rfl, hg1⟩ := optGap_of_ok k4 (by simp)
    obtain ⟨g0, rfl, hg0⟩ := optGap_of_ok h2 (by
      obtain ⟨c, t, e, -⟩ := loName_head hn
      rw [e]; simp)
    rw [simplifiedRecord_err_sep hg0 hn hg1 (.inr rfl)] at h'
    cases h'

/-! ### Types -/

/-- A record type is not an extensible record type. -/
theorem typeRecord_not_ext {t : Ty} (h : typeRecord tyRec ind s = .ok t r) : typeRecordConstructor tyRec ind s = .err := by
  unfold typeRecord typeRecordPairs at h
  obtain ⟨s1, r1, h1, o2, s2, h2, h0, g2, rfl, hg2⟩ := bracket_of_ok h
  obtain ⟨ts, h3, rfl⟩ := pmap_eq_ok.1 h0
  obtain ⟨-, rfl⟩ := char_eq_ok.1 h1
  rcases sepList_steps h3 with ⟨rfl, rfl, -⟩ | ⟨v, vs, r2, rfl, h4, h5⟩
  · obtain ⟨g, rfl, hg⟩ := twoGaps (by decide) (by decide) h2 hg2
    refine typeRecordConstructor_err_record hg (noGap_of_ne (by decide)) ?_
    rintro n s e ⟨x, y, rfl, hx, -⟩ -
    obtain ⟨rfl, -⟩ := List.cons.inj e
    exact absurd hx (by decide)
  · unfold typeRecordPair at h4
    simp only [bind_eq_ok] at h4
    obtain ⟨n, t1, k1, _, t2, k2, _, t3, k3, -⟩ := h4
    obtain ⟨-, rfl⟩ := char_eq_ok.1 k3
    obtain ⟨rfl, hn⟩ := loName_sound k1
    obtain ⟨g1, rfl, hg1⟩ := optGap_of_ok k2 (by simp)
    obtain ⟨g0, rfl, hg0⟩ := optGap_of_ok h2 (by
      obtain ⟨c, t, e, -⟩ := loName_head hn
      rw [e]; simp)
    exact typeRecordConstructor_err_record hg0 (loName_noGap hn) (field_no_bar hn hg1)

/-! ### Keywords -/

theorem gap_next {ir : IR} {j : Nat} {t : Str} (h : gap ind ir s = .ok j t) : Next (fun c => ¬ IdentChar c) s := by
  cases s with
  | nil => exact next_nil _
  | cons x s =>
    rw [next_cons]
    intro hx
    rw [gap_none (by
      refine noGap_of_ne ⟨?_, ?_, ?_⟩ <;> rintro rfl <;> revert hx <;> decide)] at h
    cases h

end ElmParser
