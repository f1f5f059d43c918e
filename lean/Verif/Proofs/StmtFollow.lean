import Verif.Proofs.StmtSound
import Verif.Proofs.ExprComplete

/-! What follows a statement in a file ends it. -/
namespace ElmParser
open Spec

variable {s r : Str}

/-- A tab or a carriage return. -/
def TabCr (c : Char) : Prop := c = '\t' ∨ c = '\r'
instance : DecidablePred TabCr := fun _ => inferInstanceAs (Decidable (_ ∨ _))

/-- The text starts like a statement that is not a line comment. -/
structure StmtHead (r : Str) : Prop where
  head : ∃ x t, r = x :: t ∧ (Lower x ∨ x = '_' ∨ x = '(' ∨ x = '{')
  notOp : ¬ OpStart r

/-- After `r` no statement goes on: at the end of a gap there is a tab, a carriage return, the end of the
text, or a statement at the beginning of a line. -/
def StmtStop (r : Str) : Prop :=
  Next TabCr r ∨ ∃ ls last r', Gap r ls last r' ∧
    (Next TabCr r' ∨ (ls ≠ [] ∧ column last = 0 ∧ StmtHead r'))

theorem StmtHead.noGap (h : StmtHead r) : NoGap r := by
  obtain ⟨⟨x, t, rfl, h⟩, -⟩ := h
  apply noGap_of_ne
  rcases h with h | rfl | rfl | rfl
  · refine ⟨?_, ?_, ?_⟩ <;> rintro rfl <;> revert h <;> decide
  all_goals decide

theorem tabCr_noGap (h : Next TabCr r) : NoGap r := by
  cases r with
  | nil => exact noGap_nil
  | cons x t =>
    apply noGap_of_ne
    rcases next_cons.1 h with rfl | rfl <;> decide

theorem gap_after_newline {ls : List Line} {last : Line} {r' : Str} (h : Gap r ls last r') :
    Gap ('\n' :: r) (⟨0, none⟩ :: ls) last r' where
  split := by simp [gapText, Line.text, commentText, sp, h.split]
  nonempty := by simp [gapText]
  lines := by
    intro l hl
    rcases List.mem_cons.1 hl with rfl | hl
    · intro t e; cases e
    · exact h.lines l hl
  lastOk := h.lastOk
  stop := h.stop

theorem gap_newline_of_noGap (h : NoGap r) : Gap ('\n' :: r) [⟨0, none⟩] ⟨0, none⟩ r where
  split := by simp [gapText, Line.text, commentText, sp]
  nonempty := by simp [gapText]
  lines := by
    intro l hl
    rcases List.mem_cons.1 hl with rfl | hl
    · intro t e; cases e
    · cases hl
  lastOk := by intro t e; cases e
  stop := .inl ⟨rfl, h⟩

theorem gap_space_of_noGap (h : NoGap r) : Gap (' ' :: r) [] ⟨1, none⟩ r where
  split := by simp [gapText, Line.text, commentText, sp]
  nonempty := by simp [gapText, Line.text, sp]
  lines := by simp
  lastOk := by intro t e; cases e
  stop := .inl ⟨rfl, h⟩

theorem gap_space {ls : List Line} {last : Line} {r' : Str} (h : Gap r ls last r') :
    ∃ ls' last', Gap (' ' :: r) ls' last' r' ∧ (ls ≠ [] → ls' ≠ [] ∧ last' = last) := by
  cases ls with
  | nil =>
    refine ⟨[], ⟨last.spaces + 1, last.comment⟩, ?_, fun h => absurd rfl h⟩
    refine ⟨?_, ?_, by simp, h.lastOk, h.stop⟩
    · rw [h.split]; simp [gapText, Line.text, sp, List.replicate_succ]
    · simp [gapText, Line.text, sp, List.replicate_succ]
  | cons l ls =>
    refine ⟨⟨l.spaces + 1, l.comment⟩ :: ls, last, ?_, fun _ => ⟨by simp, rfl⟩⟩
    refine ⟨?_, ?_, ?_, h.lastOk, h.stop⟩
    · rw [h.split]; simp [gapText, Line.text, sp, List.replicate_succ]
    · simp [gapText]
    · intro k hk
      rcases List.mem_cons.1 hk with rfl | hk
      · exact h.lines l (by simp)
      · exact h.lines k (List.mem_cons_of_mem _ hk)

theorem stmtStop_white {x : Char} (hx : White x) (h : StmtStop r) : StmtStop (x :: r) := by
  rcases hx with rfl | rfl | rfl | rfl
  · right
    rcases h with h | ⟨ls, last, r', hg, h⟩
    · exact ⟨_, _, r, gap_space_of_noGap (tabCr_noGap h), .inl h⟩
    · obtain ⟨ls', last', hg', h'⟩ := gap_space hg
      refine ⟨ls', last', r', hg', h.imp id ?_⟩
      rintro ⟨h1, h2, h3⟩
      obtain ⟨h4, rfl⟩ := h' h1
      exact ⟨h4, h2, h3⟩
  · exact .inl (next_cons.2 (.inl rfl))
  · exact .inl (next_cons.2 (.inr rfl))
  · right
    rcases h with h | ⟨ls, last, r', hg, h⟩
    · exact ⟨_, _, r, gap_newline_of_noGap (tabCr_noGap h), .inl h⟩
    · exact ⟨_, last, r', gap_after_newline hg, h.imp id fun ⟨_, h2, h3⟩ => ⟨by simp, h2, h3⟩⟩

theorem stmtStop_whites {w : Str} (hw : Whites w) (h : StmtStop r) : StmtStop (w ++ r) := by
  induction w with
  | nil => exact h
  | cons x w ih =>
    exact stmtStop_white (hw x (by simp)) (ih fun c hc => hw c (List.mem_cons_of_mem _ hc))

theorem stmtStop_nil : StmtStop [] := .inl (next_nil _)

theorem stmtStop_line {t : Str} (ht : '\n' ∉ t) (hr : Next (· = '\n') r) (h : StmtStop r) :
    StmtStop ('-' :: '-' :: t ++ r) := by
  right
  cases r with
  | nil =>
    refine ⟨[], ⟨0, some t⟩, [], ⟨?_, ?_, by simp, ?_, .inr ⟨by simp, rfl⟩⟩, .inl (next_nil _)⟩
    · simp [gapText, Line.text, commentText, sp]
    · simp [gapText, Line.text, commentText, sp]
    · rintro _ e; cases e; exact ht
  | cons x r =>
    obtain rfl := next_cons.1 hr
    rcases h with h | ⟨ls, last, r', hg, h⟩
    · rcases next_cons.1 h with h | h <;> cases h
    · have hs := hg.split
      cases ls with
      | nil =>
        exfalso
        have hne := hg.nonempty
        obtain ⟨n, o⟩ := last
        cases n <;> cases o <;> simp [gapText, Line.text, commentText, sp, List.replicate_succ] at hs hne
      | cons l ls =>
        obtain ⟨n, o⟩ := l
        cases n <;> cases o <;> simp [gapText, Line.text, commentText, sp, List.replicate_succ] at hs
        refine ⟨⟨0, some t⟩ :: ls, last, r', ⟨?_, by simp [gapText], ?_, hg.lastOk, hg.stop⟩,
          h.imp id fun ⟨_, h2⟩ => ⟨by simp, h2⟩⟩
        · simp [gapText, Line.text, commentText, sp, hs]
        · intro k hk
          rcases List.mem_cons.1 hk with rfl | hk
          · rintro _ e; cases e; exact ht
          · exact hg.lines k (List.mem_cons_of_mem _ hk)

theorem stmtHead_fnName {n : Name} {m t : Str} (h : FnName n m) (ht : Next (fun c => ¬ IdentChar c) t) :
    StmtHead (m ++ t) where
  head := by
    obtain ⟨x, u, rfl, hx⟩ := fnName_head h
    exact ⟨x, _, rfl, by rcases hx with rfl | hx | rfl <;> simp [*]⟩
  notOp := (starts_fnName h).notOp (notAs_fnName h ht)

theorem stmtHead_word {x : Char} {t : Str} (h : Lower x) (h' : x ≠ 'a') : StmtHead (x :: t) where
  head := ⟨x, t, rfl, .inl h⟩
  notOp := by
    have := (starts_cons (t := []) (goodHead_lower h)).notOp (r := t) (notAs_head h')
    exact this

theorem stmtHead_fn {st : Prop} {ind : Nat} {f : Function} {c : Str} (h : Src st ind (.fn f) c) (t : Str) :
    StmtHead (c ++ t) := by
  have key : ∀ {n m u : Str}, FnName n m → TermStop u → StmtHead (m ++ u) :=
    fun h hu => stmtHead_fnName h (Spec.TermStop.ident hu)
  cases h with
  | fn h =>
    cases h with
    | defn hn ha hw hg he =>
      simp only [List.append_assoc]
      exact key hn (fargs_termStop ha (termStop_spaces hw))
  | fnSig hn hw hg ht hk hd =>
    simp only [List.append_assoc]
    exact key hn (termStop_spaces hw)

theorem stmtHead_stmt {st : Prop} {x : Statement} {c : Str} (h : StmtSrc st x c) (t : Str) : StmtHead (c ++ t) := by
  cases h with
  | portModule | effectModule | module_ | import_ | typeAlias | type_ | portType | port =>
    exact stmtHead_word (by decide) (by decide)
  | function h => exact stmtHead_fn h t
  | @infix_ a => cases a <;> exact stmtHead_word (by decide) (by decide)
  | @block u =>
    refine ⟨⟨'{', _, rfl, by simp⟩, ?_⟩
    exact (starts_cons (x := '{') (t := '-' :: u ++ c!"-}") ⟨by decide, by decide, by decide⟩).notOp
      (notAs_head (by decide))

theorem stmtStop_newline (h : StmtHead r) : StmtStop ('\n' :: r) :=
  .inr ⟨_, _, r, gap_newline_of_noGap h.noGap, .inr ⟨by simp, rfl, h⟩⟩

/-- What follows a statement in a strict file. -/
theorem stmts_stop {b : Bool} {sts : List Statement} (h : Stmts True b sts r) :
    if b then StmtStop r ∧ (∃ u, r = '-' :: '-' :: u) ∨ StmtHead r else StmtStop r := by
  induction h with
  | @last w hw =>
    simpa using stmtStop_whites hw stmtStop_nil
  | @sep w sts c hw hne hnl _ ih =>
    simp only [if_true] at ih
    simp only [Bool.false_eq_true, if_false]
    rcases ih with ⟨ih, -⟩ | ih
    · exact stmtStop_whites hw ih
    · rcases hnl trivial with ⟨u, rfl⟩ | ⟨u, rfl⟩
      · rw [List.append_assoc]
        exact stmtStop_whites (fun c hc => hw c (by simp [hc])) (stmtStop_newline ih)
      · exact absurd rfl (ih.noGap.2 u)
  | line ht hr _ ih =>
    simp only [Bool.false_eq_true, if_false] at ih
    exact .inl ⟨stmtStop_line ht hr ih, _, rfl⟩
  | stmt hc _ _ => exact .inr (stmtHead_stmt hc _)

theorem stmts_stop' {sts : List Statement} (h : Stmts True false sts r) : StmtStop r := by
  simpa using stmts_stop h

/-- The text from the first newline on. -/
def fromNewline : Str → Str
  | [] => []
  | c :: t => if c = '\n' then c :: t else fromNewline t

theorem fromNewline_split (s : Str) : ∃ t, s = t ++ fromNewline s ∧ '\n' ∉ t ∧ Next (· = '\n') (fromNewline s) := by
  induction s with
  | nil => exact ⟨[], rfl, by simp, next_nil _⟩
  | cons x s ih =>
    by_cases hx : x = '\n'
    · subst hx; exact ⟨[], rfl, by simp, next_cons.2 rfl⟩
    · obtain ⟨t, h1, h2, h3⟩ := ih
      have e : fromNewline (x :: s) = fromNewline s := by
        rw [fromNewline, if_neg hx]
      rw [e]
      refine ⟨x :: t, by rw [List.cons_append, ← h1], ?_, h3⟩
      simp only [List.mem_cons, not_or]
      exact ⟨fun h => hx h.symm, h2⟩

theorem line_split_unique {t t' u u' : Str} (h : t ++ u = t' ++ u') (h1 : '\n' ∉ t) (h2 : Next (· = '\n') u)
    (h1' : '\n' ∉ t') (h2' : Next (· = '\n') u') : t = t' ∧ u = u' := by
  induction t generalizing t' with
  | nil =>
    cases t' with
    | nil => exact ⟨rfl, h⟩
    | cons x t' =>
      simp only [List.nil_append, List.cons_append] at h
      subst h
      obtain rfl := next_cons.1 h2
      exact absurd List.mem_cons_self h1'
  | cons x t ih =>
    cases t' with
    | nil =>
      simp only [List.nil_append, List.cons_append] at h
      subst h
      obtain rfl := next_cons.1 h2'
      exact absurd List.mem_cons_self h1
    | cons y t' =>
      simp only [List.cons_append, List.cons.injEq] at h
      obtain ⟨rfl, h⟩ := h
      obtain ⟨rfl, rfl⟩ := ih h (fun h => h1 (List.mem_cons_of_mem _ h)) (fun h => h1' (List.mem_cons_of_mem _ h))
      exact ⟨rfl, rfl⟩

theorem fromNewline_eq {t u : Str} (h1 : '\n' ∉ t) (h2 : Next (· = '\n') u) : fromNewline (t ++ u) = u := by
  obtain ⟨t', h, h3, h4⟩ := fromNewline_split (t ++ u)
  exact (line_split_unique h h1 h2 h3 h4).2.symm

/-- Cutting off the rest of a line leaves the rest of a file. -/
theorem stmts_cut {sts : List Statement} (h : Stmts True false sts r) :
    ∃ sts', Stmts True false sts' (fromNewline r) := by
  cases h with
  | last hw =>
    obtain ⟨t, h, -⟩ := fromNewline_split r
    exact ⟨[], .last fun c hc => hw c (by rw [h]; simp [hc])⟩
  | @sep w _ c hw hne hnl hc =>
    obtain ⟨t, h, h1, h2⟩ := fromNewline_split w
    cases e : fromNewline w with
    | nil =>
      rw [e, List.append_nil] at h
      subst h
      rcases hnl trivial with ⟨u, rfl⟩ | ⟨u, hu⟩
      · simp at h1
      · cases hc with
        | @line t' sts' r' ht hr hs =>
          refine ⟨sts', ?_⟩
          · have : w ++ (c!"--" ++ t' ++ r') = (w ++ c!"--" ++ t') ++ r' := by simp
            rw [this, fromNewline_eq (by simp [h1, ht]) hr]
            exact hs
        | @stmt _ _ _ r' hs _ => exact absurd hu ((stmtHead_stmt hs r').noGap.2 u)
    | cons x v =>
      rw [e] at h h2
      obtain rfl := next_cons.1 h2
      refine ⟨sts, ?_⟩
      subst h
      rw [List.append_assoc, fromNewline_eq h1 (u := '\n' :: v ++ c) (next_cons.2 rfl)]
      refine .sep (fun c hc => hw c (by simp [hc])) (by simp) (fun _ => ?_) hc
      rcases hnl trivial with ⟨u, hu⟩ | hu
      · left
        rcases List.eq_nil_or_concat ('\n' :: v) with h | ⟨L, b, h⟩
        · cases h
        · rw [List.concat_eq_append] at h
          refine ⟨L, ?_⟩
          rw [h] at hu ⊢
          rw [← List.append_assoc] at hu
          have := List.append_inj_right' hu rfl
          rw [this]
      · exact .inr hu

/-! ### Consequences -/

/-- What the parsers need to know about the text after a statement. -/
structure Follow (r : Str) : Prop where
  stop : StmtStop r
  white : Next White r
  cut : StmtStop (fromNewline r)

theorem stmts_follow {sts : List Statement} (h : Stmts True false sts r) : Follow r where
  stop := stmts_stop' h
  white := by
    cases h with
    | last hw => rintro c t rfl; exact hw c (by simp)
    | @sep w _ c hw hne _ _ =>
      cases w with
      | nil => exact absurd rfl hne
      | cons x w => exact next_cons.2 (hw x (by simp))
  cut := by
    obtain ⟨sts', h⟩ := stmts_cut h
    exact stmts_stop' h

namespace Follow

theorem termStop (h : Follow r) : TermStop r :=
  Next.imp h.white fun _ h => ⟨(white_not h).1, (white_not h).2.2.2.1, (white_not h).2.2.2.2.1⟩

theorem tokenEnd (h : Follow r) : TokenEnd r :=
  Next.imp h.white fun _ h => ⟨(white_not h).1, (white_not h).2.2.2.1⟩

theorem ident (h : Follow r) : Next (fun c => ¬ IdentChar c) r := Next.imp h.white fun _ h => (white_not h).1

theorem notOp (h : Follow r) : Next (fun c => ¬ OpChar c) r := Next.imp h.white fun _ h => (white_not h).2.1

end Follow

theorem tabCr_closer (h : Next TabCr r) : Closer r :=
  .inl (Next.imp h fun c h => by rcases h with rfl | rfl <;> decide)

theorem stop_of_stmtStop {ind : Nat} (h : StmtStop r) (ht : TermStop r) : Stop ind r := by
  refine ⟨ht, ?_⟩
  rcases h with h | ⟨ls, last, r', hg, h⟩
  · exact .inl (tabCr_noGap h)
  · refine .inr ⟨ls, last, r', hg, ?_⟩
    rcases h with h | ⟨h1, h2, h3⟩
    · exact .inl (tabCr_closer h)
    · refine .inr ⟨h1, ?_⟩
      rw [h2]
      rcases Nat.eq_zero_or_pos ind with rfl | h
      · exact .inr ⟨rfl, h3.notOp⟩
      · exact .inl h

theorem Follow.exprStop (h : Follow r) (ind : Nat) : Stop ind r := stop_of_stmtStop h.stop h.termStop

theorem Follow.tyStop (h : Follow r) (ind : Nat) : TyStop ind r := by
  refine ⟨h.tokenEnd, ?_⟩
  rcases h.stop with h | ⟨ls, last, r', hg, h⟩
  · exact .inl (tabCr_noGap h)
  · refine .inr ⟨ls, last, r', hg, ?_⟩
    rcases h with h | ⟨h1, h2, h3⟩
    · refine ⟨?_, .inl (Next.imp h fun c h => by rcases h with rfl | rfl <;> simp [TyHead, Lower, Upper])⟩
      rintro t rfl
      rcases next_cons.1 h with h | h <;> cases h
    · refine ⟨?_, .inr ⟨h1, by rw [h2]; exact Nat.zero_le _⟩⟩
      obtain ⟨⟨x, t, rfl, h⟩, -⟩ := h3
      intro u e
      simp only [List.cons.injEq] at e
      obtain ⟨rfl, -⟩ := e
      revert h; decide

theorem after_sp {n : Nat} {w t q : Str} {P : Char → Prop} (hw : ∀ c ∈ w, c = ' ') (h : w ++ t = sp n ++ q)
    (hq : Next (fun c => P c ∧ c ≠ ' ') q) : Next (fun c => P c ∨ c = ' ') t := by
  induction w generalizing n with
  | nil =>
    rw [List.nil_append] at h
    subst h
    cases n with
    | zero => exact Next.imp hq fun _ h => .inl h.1
    | succ n => exact next_cons.2 (.inr rfl)
  | cons x w ih =>
    obtain rfl := hw x (by simp)
    cases n with
    | zero =>
      simp only [sp, List.replicate_zero, List.nil_append] at h
      subst h
      exact absurd rfl (next_cons.1 hq).2
    | succ n =>
      simp only [sp, List.replicate_succ, List.cons_append, List.cons.injEq, true_and] at h
      exact ih (fun c hc => hw c (List.mem_cons_of_mem _ hc)) h

/-- After spaces there is no word, no bar and no equals sign. -/
theorem StmtStop.afterSpaces {w t : Str} (h : StmtStop r) (hw : SpacesTxt w) (e : r = w ++ t) :
    Next (fun c => White c ∨ c = '-') t ∧ (∀ u, t = '-' :: u → ∃ v, u = '-' :: v) := by
  rcases h with h | ⟨ls, last, r', hg, h⟩
  · obtain ⟨hne, hw⟩ := hw
    cases w with
    | nil => exact absurd rfl hne
    | cons x w =>
      obtain rfl := hw x (by simp)
      rw [e] at h
      rcases next_cons.1 h with h | h <;> cases h
  · have key : ∃ n q, r = sp n ++ q ∧ Next (fun c => (TabCr c ∨ c = '\n' ∨ c = '-') ∧ c ≠ ' ') q ∧
        ∀ u, q = '-' :: u → ∃ v, u = '-' :: v := by
      have hs := hg.split
      cases ls with
      | nil =>
        obtain ⟨n, o⟩ := last
        refine ⟨n, commentText o ++ r', by simpa [gapText, Line.text] using hs, ?_, ?_⟩
        · cases o with
          | some u => exact next_cons.2 (by decide)
          | none =>
            rcases h with h | ⟨h, -⟩
            · exact Next.imp h fun c h => ⟨.inl h, by rcases h with rfl | rfl <;> decide⟩
            · exact absurd rfl h
        · cases o with
          | some u => rintro v e; simp [commentText] at e; exact ⟨_, e.symm⟩
          | none =>
            rintro u e
            rcases h with h | ⟨h, -⟩
            · rw [show commentText none = [] from rfl, List.nil_append] at e
              subst e
              rcases next_cons.1 h with h | h <;> cases h
            · exact absurd rfl h
      | cons l ls =>
        obtain ⟨n, o⟩ := l
        refine ⟨n, commentText o ++ '\n' :: (gapText ls last ++ r'),
          by simpa [gapText, Line.text] using hs, ?_, ?_⟩
        · cases o with
          | some u => exact next_cons.2 (by decide)
          | none => exact next_cons.2 (by decide)
        · cases o with
          | some u => rintro v e; simp [commentText] at e; exact ⟨_, e.symm⟩
          | none => rintro u e; simp [commentText] at e
    obtain ⟨n, q, hr, hq, hq'⟩ := key
    rw [e] at hr
    refine ⟨Next.imp (after_sp hw.2 hr hq) ?_, ?_⟩
    · rintro c ((((rfl | rfl) | rfl | rfl)) | rfl) <;> decide
    · rintro u rfl
      have h1 : w ++ '-' :: u = sp n ++ q := hr
      clear hr h
      obtain ⟨hne, hw⟩ := hw
      clear hne e
      induction w generalizing n with
      | nil =>
        cases n with
        | zero => exact hq' u h1.symm
        | succ n => simp [sp, List.replicate_succ] at h1
      | cons x w ih =>
        obtain rfl := hw x (by simp)
        cases n with
        | zero =>
          simp only [sp, List.replicate_zero, List.nil_append] at h1
          subst h1
          exact absurd rfl (next_cons.1 hq).2
        | succ n =>
          simp only [sp, List.replicate_succ, List.cons_append, List.cons.injEq, true_and] at h1
          exact ih n h1 (fun c hc => hw c (List.mem_cons_of_mem _ hc))

/-- No arguments of a definition follow. -/
theorem StmtStop.noArg (h : StmtStop r) {ind : Nat} : preceded spaces (termF expression ind) r = .err := by
  rw [preceded_apply]
  rcases err_or_ok cons_spaces r with e | ⟨w, t, e, -⟩
  · rw [e]; rfl
  · rw [e, andThen_ok]
    obtain ⟨h1, h2⟩ := spaces_sound e
    obtain ⟨h3, h4⟩ := h.afterSpaces h2 h1
    cases t with
    | nil => exact termF_nil
    | cons x t =>
      rcases next_cons.1 h3 with hx | rfl
      · exact termF_err_head (white_not hx).2.2.1
      · obtain ⟨v, rfl⟩ := h4 t rfl
        exact termF_sign_err (.inr rfl) (next_cons.2 (by decide))

/-- No word or sign follows after spaces. -/
theorem StmtStop.noWord {α : Type} (h : StmtStop r) {p : Parser α} (hp : p [] = .err)
    (hp' : ∀ x t, White x ∨ x = '-' → p (x :: t) = .err) : preceded spaces p r = .err := by
  rw [preceded_apply]
  rcases err_or_ok cons_spaces r with e | ⟨w, t, e, -⟩
  · rw [e]; rfl
  · rw [e, andThen_ok]
    obtain ⟨h1, h2⟩ := spaces_sound e
    obtain ⟨h3, h4⟩ := h.afterSpaces h2 h1
    cases t with
    | nil => exact hp
    | cons x t => exact hp' x t (next_cons.1 h3)

end ElmParser
