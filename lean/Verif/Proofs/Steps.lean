import Verif.Proofs.Gap
import Verif.Spec.Types

/-! Inversion of the loops without any assumption on the parsers, and gap texts. -/
namespace ElmParser
open Spec

variable {α β γ δ : Type}

/-- Successful rounds of `p`. -/
inductive Steps (p : Parser α) : Str → List α → Str → Prop
  | nil (s : Str) : Steps p s [] s
  | cons {s r t : Str} {v : α} {vs : List α} : p s = .ok v r → Steps p r vs t →
      Steps p s (v :: vs) t

theorem many0Loop_steps {p : Parser α} {n : Nat} {s r : Str} {vs : List α}
    (h : many0Loop p n s = .ok vs r) : Steps p s vs r := by
  induction n generalizing s vs with
  | zero => simp [many0Loop] at h
  | succ n ih =>
    simp only [many0Loop] at h
    split at h
    · simp only [Res.ok.injEq] at h
      obtain ⟨rfl, rfl⟩ := h; exact .nil _
    · cases h
    · cases h
    · next v t e =>
      split at h
      · simp only [Res.ok.injEq] at h
        obtain ⟨rfl, rfl⟩ := h; exact .nil _
      · obtain ⟨ws, t', h1, h2⟩ := andThen_eq_ok.1 h
        simp only [Res.ok.injEq] at h2
        obtain ⟨rfl, rfl⟩ := h2
        exact .cons e (ih h1)

theorem many0_steps {p : Parser α} {s r : Str} {vs : List α} (h : many0 p s = .ok vs r) :
    Steps p s vs r := by
  unfold many0 at h
  exact many0Loop_steps h

theorem sepLoop_steps {sep : Parser β} {p : Parser α} {n : Nat} {s r : Str} {vs : List α}
    (h : sepLoop sep p n s = .ok vs r) : Steps (preceded sep p) s vs r := by
  induction n generalizing s vs with
  | zero => simp [sepLoop] at h
  | succ n ih =>
    simp only [sepLoop] at h
    split at h
    · simp only [Res.ok.injEq] at h
      obtain ⟨rfl, rfl⟩ := h; exact .nil _
    · cases h
    · cases h
    · next w s2 e =>
      split at h
      · simp only [Res.ok.injEq] at h
        obtain ⟨rfl, rfl⟩ := h; exact .nil _
      · split at h
        · simp only [Res.ok.injEq] at h
          obtain ⟨rfl, rfl⟩ := h; exact .nil _
        · cases h
        · cases h
        · next v s3 e' =>
          split at h
          · simp only [Res.ok.injEq] at h
            obtain ⟨rfl, rfl⟩ := h; exact .nil _
          · obtain ⟨ws, t', h1, h2⟩ := andThen_eq_ok.1 h
            simp only [Res.ok.injEq] at h2
            obtain ⟨rfl, rfl⟩ := h2
            exact .cons (preceded_eq_ok.2 ⟨_, _, e, e'⟩) (ih h1)

theorem sepNonemptyList_steps {sep : Parser β} {p : Parser α} {s r : Str} {l : List α}
    (h : sepNonemptyList sep p s = .ok l r) :
    ∃ v vs r1, l = v :: vs ∧ p s = .ok v r1 ∧ Steps (preceded sep p) r1 vs r := by
  unfold sepNonemptyList at h
  obtain ⟨v, r1, h1, h2⟩ := andThen_eq_ok.1 h
  split at h2
  · cases h2
  · obtain ⟨ws, t', h3, h4⟩ := andThen_eq_ok.1 h2
    simp only [Res.ok.injEq] at h4
    obtain ⟨rfl, rfl⟩ := h4
    exact ⟨v, ws, r1, rfl, h1, sepLoop_steps h3⟩

theorem sepList_steps {sep : Parser β} {p : Parser α} {s r : Str} {l : List α}
    (h : sepList sep p s = .ok l r) :
    (l = [] ∧ r = s ∧ p s = .err) ∨
    ∃ v vs r1, l = v :: vs ∧ p s = .ok v r1 ∧ Steps (preceded sep p) r1 vs r := by
  unfold sepList at h
  split at h
  · next e =>
    simp only [Res.ok.injEq] at h
    exact .inl ⟨h.1.symm, h.2.symm, e⟩
  · cases h
  · cases h
  · next v r1 e =>
    right
    split at h
    · cases h
    · obtain ⟨ws, t', h3, h4⟩ := andThen_eq_ok.1 h
      simp only [Res.ok.injEq] at h4
      obtain ⟨rfl, rfl⟩ := h4
      exact ⟨v, ws, r1, rfl, e, sepLoop_steps h3⟩

/-! ### Gap texts -/

theorem gapTxt_of_ok {ind i : Nat} {ir : IR} {s r : Str} (h : gap ind ir s = .ok i r)
    (hr : r ≠ []) : NoGap r ∧ ∃ g, s = g ++ r ∧ GapTxt ind ir i g := by
  obtain ⟨ls, last, hg, h'⟩ := gap_iff.1 h
  have hstop : last.comment = none ∧ NoGap r := by
    rcases hg.stop with h | ⟨-, h⟩
    · exact h
    · exact absurd h hr
  obtain ⟨n, c⟩ := last
  obtain ⟨rfl, hn⟩ := hstop
  simp only [column, if_true] at h'
  refine ⟨hn, _, hg.split, ls, n, rfl, hg.nonempty, hg.lines, ?_⟩
  rcases h' with ⟨h1, h2⟩ | ⟨h1, h2, h3⟩
  · exact .inl ⟨h1, h2⟩
  · exact .inr ⟨h1, h2, h2 ▸ h3⟩

theorem Spec.GapTxt.gap {ind i : Nat} {ir : IR} {g r : Str} (h : GapTxt ind ir i g) (hr : NoGap r) :
    ElmParser.gap ind ir (g ++ r) = .ok i r := by
  obtain ⟨ls, n, rfl, h1, h2, h3⟩ := h
  refine gap_iff.2 ⟨ls, ⟨n, none⟩, ⟨rfl, h1, h2, by simp [Line.ok], .inl ⟨rfl, hr⟩⟩, ?_⟩
  simp only [column, if_true]
  rcases h3 with ⟨h1, h2⟩ | ⟨h1, h2, h3⟩
  · exact .inl ⟨h1, h2⟩
  · exact .inr ⟨h1, h2, h2 ▸ h3⟩

theorem Spec.GapTxt.isGap {ind i : Nat} {ir : IR} {g r : Str} (h : GapTxt ind ir i g) (hr : NoGap r) :
    ∃ ls n, Gap (g ++ r) ls ⟨n, none⟩ r ∧
      ((ls = [] ∧ i = ind) ∨ (ls ≠ [] ∧ i = n % 4294967296 ∧ Rel ir i ind)) := by
  obtain ⟨ls, n, rfl, h1, h2, h3⟩ := h
  exact ⟨ls, n, ⟨rfl, h1, h2, by simp [Line.ok], .inl ⟨rfl, hr⟩⟩, h3⟩

theorem optGap_of_ok {ind : Nat} {ir : IR} {s r : Str} {o : Option Nat}
    (h : opt (gap ind ir) s = .ok o r) (hr : r ≠ []) : ∃ g, s = g ++ r ∧ OptGapTxt ind ir g := by
  rcases opt_eq_ok.1 h with ⟨v, h', rfl⟩ | ⟨h', rfl, rfl⟩
  · obtain ⟨-, g, h1, h2⟩ := gapTxt_of_ok h' hr
    exact ⟨g, h1, .inr ⟨_, h2⟩⟩
  · exact ⟨[], rfl, .inl rfl⟩

theorem optGap'_of_ok {ind i : Nat} {ir : IR} {s r : Str}
    (h : optGap ind ir s = .ok i r) (hr : r ≠ []) : ∃ g, s = g ++ r ∧ OptGapTxt ind ir g := by
  obtain ⟨o, h, -⟩ := pmap_eq_ok.1 h
  exact optGap_of_ok h hr

theorem Spec.OptGapTxt.opt {ind : Nat} {ir : IR} {g r : Str} (h : OptGapTxt ind ir g) (hr : NoGap r) :
    ∃ o, ElmParser.opt (ElmParser.gap ind ir) (g ++ r) = .ok o r := by
  rcases h with rfl | ⟨i, h⟩
  · exact ⟨none, opt_eq_ok.2 (.inr ⟨gap_none hr _ _, rfl, rfl⟩)⟩
  · exact ⟨some i, opt_eq_ok.2 (.inl ⟨i, h.gap hr, rfl⟩)⟩

theorem Spec.OptGapTxt.optGap {ind : Nat} {ir : IR} {g r : Str} (h : OptGapTxt ind ir g) (hr : NoGap r) :
    ∃ i, ElmParser.optGap ind ir (g ++ r) = .ok i r := by
  obtain ⟨o, h⟩ := h.opt hr
  exact ⟨_, pmap_eq_ok.2 ⟨o, h, rfl⟩⟩

/-- What a gap starts with. -/
theorem Spec.GapTxt.cons {ind i : Nat} {ir : IR} {g : Str} (h : GapTxt ind ir i g) :
    ∃ c t, g = c :: t ∧ (c = ' ' ∨ c = '\n' ∨ (c = '-' ∧ ∃ t', t = '-' :: t')) := by
  obtain ⟨ls, n, rfl, h1, h2, -⟩ := h
  cases ls with
  | nil =>
    cases n with
    | zero => exact absurd rfl h1
    | succ n => exact ⟨' ', _, rfl, .inl rfl⟩
  | cons l ls =>
    obtain ⟨m, o⟩ := l
    cases m with
    | succ m => exact ⟨' ', _, rfl, .inl rfl⟩
    | zero =>
      cases o with
      | none => exact ⟨'\n', _, rfl, .inr (.inl rfl)⟩
      | some t => exact ⟨'-', _, rfl, .inr (.inr ⟨rfl, _, rfl⟩)⟩

/-- Gaps are unique. -/
theorem gap_unique {s r r' : Str} {ls ls' : List Line} {last last' : Line} (h : Gap s ls last r)
    (h' : Gap s ls' last' r') :
    r' = r ∧ (ls = [] ↔ ls' = []) ∧ (ls ≠ [] → column last % 4294967296 = column last' % 4294967296) := by
  have k1 := fun ind i r'' => (gap_of_gap h ind .GTE (i := i) (r' := r'')).symm.trans
    (gap_of_gap h' ind .GTE)
  have e : r' = r := by
    refine ((k1 0 (if ls' = [] then 0 else column last' % 4294967296) r').2 ⟨rfl, ?_⟩).1
    by_cases h : ls' = []
    · simp [h]
    · simp [h, Rel]
  subst e
  refine ⟨rfl, ⟨fun e => ?_, fun e => ?_⟩, fun e => ?_⟩
  · subst e
    apply Classical.byContradiction
    intro hne
    have := (k1 (column last' % 4294967296 + 1) _ r').1 ⟨rfl, .inl ⟨rfl, rfl⟩⟩
    simp [hne, Rel] at this
    omega
  · subst e
    apply Classical.byContradiction
    intro hne
    have := (k1 (column last % 4294967296 + 1) _ r').2 ⟨rfl, .inl ⟨rfl, rfl⟩⟩
    simp [hne, Rel] at this
    omega
  · have h1 := (k1 0 (column last % 4294967296) r').1 ⟨rfl, .inr ⟨e, rfl, Nat.zero_le _⟩⟩
    rcases h1 with ⟨-, ⟨h1, -⟩ | ⟨-, h1, -⟩⟩
    · exfalso
      subst h1
      have := (k1 (column last % 4294967296 + 1) _ r').2 ⟨rfl, .inl ⟨rfl, rfl⟩⟩
      simp [e, Rel] at this
      omega
    · exact h1

theorem ok_ne_nil {p : Parser α} (h0 : p [] = .err) {s r : Str} {v : α} (h : p s = .ok v r) :
    s ≠ [] := by rintro rfl; rw [h0] at h; cases h

theorem err_nil {p : Parser α} (hp : ∀ k, Cons k p) : p [] = .err := by
  rcases err_or_ok hp [] with e | ⟨v, r, -, -, h⟩
  · exact e
  · simp at h

end ElmParser
