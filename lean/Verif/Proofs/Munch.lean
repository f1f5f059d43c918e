import Verif.Proofs.Steps
import Verif.Proofs.Total
import Verif.Proofs.Unfold
import Verif.Proofs.RenameParsers
import Verif.Proofs.ExprSound

/-! An expression is read as far as possible: helper lemmas. -/
namespace ElmParser.Munch
open ElmParser Spec

variable {α β : Type}

theorem ok_of_cons {p : Parser α} (h : ∀ k, Cons k p) {s r : Str} {v : α} (e : p s = .ok v r) :
    r <:+ s ∧ r.length < s.length := by
  rcases h (s.length + 1) s (Nat.lt_succ_self _) with h | ⟨v', r', h, h1, h2⟩
  · rw [h] at e; cases e
  · rw [h] at e; cases e; exact ⟨h1, h2⟩

theorem ok_of_good {p : Parser α} (h : ∀ k, Good k p) {s r : Str} {v : α} (e : p s = .ok v r) : r <:+ s := by
  rcases h (s.length + 1) s (Nat.lt_succ_self _) with h | ⟨v', r', h, h1⟩
  · rw [h] at e; cases e
  · rw [h] at e; cases e; exact h1

/-- Every line of `s` that starts before `r` is indented by less than `m` spaces (as a `u32`). -/
def Lines (m : Nat) (s r : Str) : Prop :=
  ∀ n q, ('\n' :: (sp n ++ q)) <:+ s → Next (· ≠ ' ') q → r <:+ q → n % 4294967296 < m

theorem Lines.mono {m : Nat} {s t r : Str} (h : Lines m s r) (ht : t <:+ s) : Lines m t r :=
  fun n q hq => h n q (hq.trans ht)

theorem gapText_last {ls : List Line} {last : Line} (h : ls ≠ []) : ('\n' :: last.text) <:+ gapText ls last := by
  induction ls with
  | nil => exact absurd rfl h
  | cons l ls ih =>
    cases ls with
    | nil => exact ⟨l.text, by simp [gapText]⟩
    | cons l' ls =>
      obtain ⟨a, ha⟩ := ih (by simp)
      exact ⟨l.text ++ '\n' :: a, by rw [gapText, ← ha]; simp⟩

theorem gap_below {m ind i : Nat} {ir : IR} {s t r : Str} (h : gap ind ir s = .ok i t) (hr : r <:+ t) (hi : ind < m)
    (hl : Lines m s r) : i < m := by
  obtain ⟨ls, last, hg, h⟩ := gap_iff.1 h
  rcases h with ⟨-, rfl⟩ | ⟨hne, rfl, -⟩
  · split
    · exact hi
    · omega
  · by_cases hc : last.comment = none
    · have hn : NoGap t := by
        rcases hg.stop with h | h
        · exact h.2
        · exact absurd hc h.1
      have : column last = last.spaces := by simp [column, hc]
      rw [this]
      refine hl last.spaces t ?_ ?_ hr
      · obtain ⟨a, ha⟩ := gapText_last (last := last) hne
        refine ⟨a, ?_⟩
        rw [hg.split, ← ha]
        simp [Line.text, hc, commentText]
      · exact fun c q e => (hn.1 c q e).1
    · have : column last = 0 := by simp [column, hc]
      rw [this]; simp; omega

/-- What follows goes on with an argument, at every indentation below `m`. -/
def Arg (m : Nat) (r : Str) : Prop :=
  ∀ j, j < m → ∃ i y v q, gap j .GT r = .ok i y ∧ term j y = .ok v q

/-- What follows goes on with an operator and an operand, at every indentation below `m`. -/
def Op (m : Nat) (r : Str) : Prop := ∀ j, j < m → ∃ v q, binaryTail expression j r = .ok v q

theorem sepLoop_stop {sep : Parser β} {p : Parser α} (hs : ∀ k, Cons k sep) (hp : ∀ k, Cons k p) {n : Nat} {s r : Str}
    {vs : List α} (h : sepLoop sep p n s = .ok vs r) : ∀ w t, sep r = .ok w t → ∀ v q, p t ≠ .ok v q := by
  induction n generalizing s vs with
  | zero => simp [sepLoop] at h
  | succ n ih =>
    simp only [sepLoop] at h
    split at h
    · next e =>
      simp only [Res.ok.injEq] at h
      obtain ⟨-, rfl⟩ := h
      intro w t e'; rw [e] at e'; cases e'
    · cases h
    · cases h
    · next w s2 e =>
      have l1 := (ok_of_cons hs e).2
      split at h
      · omega
      · split at h
        · next e' =>
          simp only [Res.ok.injEq] at h
          obtain ⟨-, rfl⟩ := h
          intro w t e2 v q e3
          rw [e] at e2; cases e2
          rw [e'] at e3; cases e3
        · cases h
        · cases h
        · next v s3 e' =>
          have l2 := (ok_of_cons hp e').2
          split at h
          · omega
          · obtain ⟨ws, t', h1, h2⟩ := andThen_eq_ok.1 h
            simp only [Res.ok.injEq] at h2
            obtain ⟨-, rfl⟩ := h2
            exact ih h1

theorem sepNonemptyList_stop {sep : Parser β} {p : Parser α} (hs : ∀ k, Cons k sep) (hp : ∀ k, Cons k p) {s r : Str}
    {vs : List α} (h : sepNonemptyList sep p s = .ok vs r) : ∀ w t, sep r = .ok w t → ∀ v q, p t ≠ .ok v q := by
  unfold sepNonemptyList at h
  obtain ⟨v, r1, h1, h2⟩ := andThen_eq_ok.1 h
  split at h2
  · cases h2
  · obtain ⟨ws, t', h3, h4⟩ := andThen_eq_ok.1 h2
    simp only [Res.ok.injEq] at h4
    obtain ⟨-, rfl⟩ := h4
    exact sepLoop_stop hs hp h3

/-- The rest of a list is the rest of its last part. -/
theorem sepNonemptyList_last {sep : Parser β} {p : Parser α} (hs : ∀ k, Good k sep) (hp : ∀ k, Good k p) {s r : Str}
    {vs : List α} (h : sepNonemptyList sep p s = .ok vs r) : ∃ s' v, s' <:+ s ∧ p s' = .ok v r := by
  obtain ⟨v, vs, r1, rfl, h1, h2⟩ := sepNonemptyList_steps h
  clear h
  induction vs generalizing s v r1 with
  | nil => cases h2; exact ⟨s, v, List.suffix_refl s, h1⟩
  | cons w vs ih =>
    cases h2 with
    | cons h3 h4 =>
      obtain ⟨_, t, h5, h6⟩ := preceded_eq_ok.1 h3
      obtain ⟨s', v', h7, h8⟩ := ih _ _ h6 h4
      exact ⟨s', v', h7.trans ((ok_of_good hs h5).trans (ok_of_good hp h1)), h8⟩

theorem x_gap {ind i : Nat} {ir : IR} {s r : Str} (h : gap ind ir s = .ok i r) : r <:+ s ∧ r.length < s.length :=
  ok_of_cons (fun k => cons_gap k ind ir) h
theorem x_expr {ind : Nat} {e : Expr} {s r : Str} (h : expression ind s = .ok e r) : r <:+ s ∧ r.length < s.length :=
  ok_of_cons (fun k => cons_expression k ind) h
theorem x_tag {c : Char} {t v s r : Str} (h : tag (c :: t) s = .ok v r) : r <:+ s ∧ r.length < s.length :=
  ok_of_cons (fun k => cons_tag k c t) h
theorem x_char {c v : Char} {s r : Str} (h : char c s = .ok v r) : r <:+ s ∧ r.length < s.length :=
  ok_of_cons (fun k => cons_char k c) h

theorem good_branch (k ind : Nat) : Good k (caseBranch expression ind) :=
  good_caseBranch (fun i => (cons_expression k i).good) ind
theorem cons_entry (k ind : Nat) : Cons k (letEntry expression ind) :=
  (cons_letEntry (fun i => (cons_expression k i).good) ind).mono (by omega)

/-- The claim for all texts of at most `n` characters. -/
def IH (m n : Nat) : Prop := ∀ s, s.length ≤ n → ∀ ind e r, expression ind s = .ok e r → ind < m → Lines m s r →
  ¬ Arg m r ∧ ¬ Op m r

section
variable {m n ind : Nat} {s r : Str} (ih : IH m n) (hs : s.length ≤ n + 1) (hi : ind < m) (hl : Lines m s r)
include ih hs hi hl

theorem munch_binary {e : Expr} (h : binary expression ind s = .ok e r) : ¬ Arg m r ∧ ¬ Op m r := by
  unfold binary at h
  simp only [bind_eq_ok, pure_eq_ok] at h
  obtain ⟨a, s1, k1, o, s2, k2, -, rfl⟩ := h
  rw [Rn.applicationOrVar_eq, pmap_eq_ok] at k1
  obtain ⟨v, k1, -⟩ := k1
  rcases opt_eq_ok.1 k2 with ⟨w, k2, -⟩ | ⟨k3, -, rfl⟩
  · unfold binaryTail at k2
    simp only [bind_eq_ok, pure_eq_ok] at k2
    obtain ⟨i, s3, k3, op, s4, k4, _, s5, k5, b, s6, k6, -, rfl⟩ := k2
    have l1 := ok_of_cons (fun k => cons_sepNonemptyList (cons_gap k ind .GT).good (cons_term k ind).good) k1
    have l3 := x_gap k3
    have l4 := ok_of_cons cons_operatorOrAs k4
    have l5 := ok_of_cons cons_multispace k5
    exact ih s5 (by omega) ind b _ k6 hi (hl.mono (l5.1.trans (l4.1.trans (l3.1.trans l1.1))))
  · refine ⟨fun h => ?_, fun h => ?_⟩
    · obtain ⟨i, y, v, q, g, t⟩ := h ind hi
      exact sepNonemptyList_stop (fun k => cons_gap k ind .GT) (fun k => cons_term k ind) k1 i y g v q t
    · obtain ⟨v, q, g⟩ := h ind hi
      rw [k3] at g; cases g

theorem munch_let {e : Expr} (h : letExpression expression ind s = .ok e r) : ¬ Arg m r ∧ ¬ Op m r := by
  unfold letExpression letBindings at h
  simp only [bind_eq_ok, pure_eq_ok] at h
  obtain ⟨_, s1, k1, i, s2, k2, ls, s3, k3, i2, s4, k4, _, s5, k5, i3, s6, k6, b, s7, k7, -, rfl⟩ := h
  have l1 := x_tag k1
  have l2 := x_gap k2
  have l3 := ok_of_cons (fun k => cons_sepNonemptyList (cons_gap k i .EQ).good (cons_entry k i).good) k3
  have l4 := x_gap k4
  have l5 := x_tag k5
  have l6 := x_gap k6
  exact ih s6 (by omega) ind b _ k7 hi
    (hl.mono (l6.1.trans (l5.1.trans (l4.1.trans (l3.1.trans (l2.1.trans l1.1))))))

theorem munch_case {e : Expr} (h : caseExpression expression ind s = .ok e r) : ¬ Arg m r ∧ ¬ Op m r := by
  unfold caseExpression casesP at h
  simp only [bind_eq_ok, pure_eq_ok] at h
  obtain ⟨_, s1, k1, i, s2, k2, a, s3, k3, i2, s4, k4, _, s5, k5, i3, s6, k6, b, s7, k7, -, rfl⟩ := h
  have l1 := x_tag k1
  have l2 := x_gap k2
  have l3 := x_expr k3
  have l4 := x_gap k4
  have l5 := x_tag k5
  have l6 := x_gap k6
  have l7 := ok_of_cons (fun k => cons_sepNonemptyList (cons_gap k i3 .EQ).good (good_branch k i3)) k7
  have hl5 : Lines m s5 s7 := hl.mono (l5.1.trans (l4.1.trans (l3.1.trans (l2.1.trans l1.1))))
  have hi3 : i3 < m := gap_below k6 l7.1 hi hl5
  obtain ⟨t, v, ht, k8⟩ := sepNonemptyList_last (fun k => (cons_gap k i3 .EQ).good) (fun k => good_branch k i3) k7
  unfold caseBranch at k8
  simp only [bind_eq_ok, pure_eq_ok] at k8
  obtain ⟨p, t1, j1, i4, t2, j2, _, t3, j3, i5, t4, j4, b, t5, j5, -, rfl⟩ := k8
  have m1 := x_expr j1
  have m2 := x_gap j2
  have m3 := x_tag j3
  have m4 := x_gap j4
  have m5 := x_expr j5
  have ht' := ht.length_le
  have hl3 : Lines m t3 t5 := hl5.mono (m3.1.trans (m2.1.trans (m1.1.trans (ht.trans l6.1))))
  exact ih t4 (by omega) i5 b _ j5 (gap_below j4 m5.1 hi3 hl3) (hl3.mono m4.1)

theorem munch_if {e : Expr} (h : ifExpression expression ind s = .ok e r) : ¬ Arg m r ∧ ¬ Op m r := by
  unfold ifExpression at h
  simp only [bind_eq_ok, pure_eq_ok] at h
  obtain ⟨_, s1, k1, i, s2, k2, a, s3, k3, i2, s4, k4, _, s5, k5, i3, s6, k6, b, s7, k7, i4, s8, k8, _, s9, k9, i5, s10,
    k10, c, s11, k11, -, rfl⟩ := h
  have l1 := x_tag k1
  have l2 := x_gap k2
  have l3 := x_expr k3
  have l4 := x_gap k4
  have l5 := x_tag k5
  have l6 := x_gap k6
  have l7 := x_expr k7
  have l8 := x_gap k8
  have l9 := x_tag k9
  have l10 := x_gap k10
  have l11 := x_expr k11
  have hl9 : Lines m s9 s11 := hl.mono (l9.1.trans (l8.1.trans (l7.1.trans (l6.1.trans (l5.1.trans (l4.1.trans (l3.1.trans
    (l2.1.trans l1.1))))))))
  exact ih s10 (by omega) i5 c _ k11 (gap_below k10 l11.1 hi hl9) (hl9.mono l10.1)

theorem munch_lambda {e : Expr} (h : lambda expression ind s = .ok e r) : ¬ Arg m r ∧ ¬ Op m r := by
  unfold lambda at h
  simp only [bind_eq_ok, pure_eq_ok] at h
  obtain ⟨_, s1, k1, as, s2, k2, i, s3, k3, _, s4, k4, j, s5, k5, b, s6, k6, -, rfl⟩ := h
  have l1 := x_char k1
  have l2 := ok_of_cons (fun k => cons_sepNonemptyList (cons_space1 k).good (cons_term k ind).good) k2
  have l3 := x_gap k3
  have l4 := x_tag k4
  have l5 := x_gap k5
  have l6 := x_expr k6
  have hl4 : Lines m s4 s6 := hl.mono (l4.1.trans (l3.1.trans (l2.1.trans l1.1)))
  exact ih s5 (by omega) j b _ k6 (gap_below k5 l6.1 hi hl4) (hl4.mono l5.1)

end

/-- An expression is read as far as possible. -/
theorem munch (m n : Nat) : IH m n := by
  induction n with
  | zero =>
    intro s hs ind e r h
    have := (x_expr h).2
    omega
  | succ n ih =>
    intro s hs ind e r h hi hl
    rw [expression_unfold] at h
    simp only [expressionF, alt_eq_ok] at h
    rcases h with h | ⟨-, h | ⟨-, h | ⟨-, h | ⟨-, h⟩⟩⟩⟩
    · exact munch_binary ih hs hi hl h
    · exact munch_let ih hs hi hl h
    · exact munch_case ih hs hi hl h
    · exact munch_if ih hs hi hl h
    · exact munch_lambda ih hs hi hl h

theorem munch_expression {m ind : Nat} {e : Expr} {s r : Str} (h : expression ind s = .ok e r) (hi : ind < m)
    (hl : Lines m s r) : ¬ Arg m r ∧ ¬ Op m r := munch m s.length s (Nat.le_refl _) ind e r h hi hl

theorem munch_definition {m ind : Nat} {f : FunctionDefinition} {s r : Str} (h : functionDefinition ind s = .ok f r)
    (hi : ind < m) (hl : Lines m s r) : ¬ Arg m r ∧ ¬ Op m r := by
  unfold functionDefinition functionDefinitionF at h
  simp only [bind_eq_ok, pure_eq_ok] at h
  obtain ⟨_, s1, k1, as, s2, k2, _, s3, k3, _, s4, k4, j, s5, k5, b, s6, k6, -, rfl⟩ := h
  have l1 := ok_of_cons cons_functionNameOrOp k1
  have l2 := ok_of_good (fun k => good_many0 (good_preceded (cons_spaces k).good (cons_term k ind).good)) k2
  have l3 := ok_of_cons cons_spaces k3
  have l4 := x_char k4
  have l5 := x_gap k5
  have l6 := x_expr k6
  have hl4 : Lines m s4 s6 := hl.mono (l4.1.trans (l3.1.trans (l2.trans l1.1)))
  exact munch_expression k6 (gap_below k5 l6.1 hi hl4) (hl4.mono l5.1)

theorem munch_function {m ind : Nat} {f : Function} {s r : Str} (h : function ind s = .ok f r)
    (hi : ind < m) (hl : Lines m s r) : ¬ Arg m r ∧ ¬ Op m r := by
  unfold function functionF at h
  simp only [bind_eq_ok, pure_eq_ok] at h
  obtain ⟨o, s1, k1, d, s2, k2, -, rfl⟩ := h
  have l1 := ok_of_good (fun k => good_opt (good_terminated (cons_functionSignature k ind).good
    (cons_newLineAndSameIndent k ind).good)) k1
  exact munch_definition k2 hi (hl.mono l1)

theorem munch_entry {m ind : Nat} {f : LetEntry} {s r : Str} (h : letEntry expression ind s = .ok f r)
    (hi : ind < m) (hl : Lines m s r) : ¬ Arg m r ∧ ¬ Op m r := by
  unfold letEntry at h
  rcases alt_eq_ok.1 h with h | ⟨-, h⟩
  · unfold letBinding at h
    simp only [bind_eq_ok, pure_eq_ok] at h
    obtain ⟨_, s1, k1, i, s2, k2, _, s3, k3, j, s4, k4, b, s6, k6, -, rfl⟩ := h
    have l1 := ok_of_cons (fun k => (cons_letBindingTarget (fun i => (cons_expression k i).good) ind).mono
      (Nat.le_succ k)) k1
    have l2 := x_gap k2
    have l3 := x_char k3
    have l4 := x_gap k4
    have l6 := x_expr k6
    have hl3 : Lines m s3 s6 := hl.mono (l3.1.trans (l2.1.trans l1.1))
    exact munch_expression k6 (gap_below k4 l6.1 hi hl3) (hl3.mono l4.1)
  · obtain ⟨f, h, -⟩ := pmap_eq_ok.1 h
    exact munch_function h hi hl

end ElmParser.Munch
