import Verif.Proofs.Lex

/-! The layout parser does exactly what `Spec.Gap` says. -/
namespace ElmParser
open Spec

/-- One piece of a gap. -/
def gapPiece (ind : Nat) : Parser (SpacesContent × Nat) :=
  value (.Spaces, ind) spaces </> (pmap singleLineComment fun _ => (.Comment, 0)) </> newLineItem

theorem cons_gapPiece (ind k : Nat) : Cons k (gapPiece ind) :=
  cons_alt (cons_pmap (cons_spaces k)) (cons_alt (cons_pmap (cons_singleLineComment k))
    (cons_newLineItem k))

theorem eq_sp {v : Str} (h : ∀ c ∈ v, c = ' ') : v = sp v.length :=
  List.eq_replicate_iff.2 ⟨rfl, h⟩

theorem mem_sp {n : Nat} {c : Char} (h : c ∈ sp n) : c = ' ' := List.eq_of_mem_replicate h

theorem spaces0_sp {n : Nat} {r : Str} (h : Next (· ≠ ' ') r) : spaces0 (sp n ++ r) = .ok (sp n) r := by
  unfold spaces0
  rw [pmap_eq_ok]
  cases n with
  | zero =>
    refine ⟨none, opt_eq_ok.2 (.inr ⟨?_, rfl, rfl⟩), rfl⟩
    exact spaces_err.2 h
  | succ n =>
    refine ⟨some (sp (n + 1)), opt_eq_ok.2 (.inl ⟨_, ?_, rfl⟩), rfl⟩
    exact spaces_iff.2 ⟨rfl, by simp [sp], fun c => mem_sp, h⟩

theorem split_sp (s : Str) : ∃ n r, s = sp n ++ r ∧ Next (· ≠ ' ') r := by
  obtain ⟨h1, h2, h3⟩ := (span_iff (s := s) (f := fun c => c == ' ')).1 ⟨rfl, rfl⟩
  refine ⟨(s.takeWhile fun c => c == ' ').length, s.dropWhile fun c => c == ' ', ?_, ?_⟩
  · rw [← eq_sp (fun c hc => by simpa using h2 c hc)]; exact h1
  · intro c r e
    simpa using h3 c r e

theorem newLineItem_sp {n : Nat} {r : Str} (h : Next (· ≠ ' ') r) :
    newLineItem ('\n' :: sp n ++ r) = .ok (.NewLineAndSpaces, asU32 n) r := by
  unfold newLineItem
  rw [preceded_eq_ok]
  refine ⟨'\n', sp n ++ r, by simp, ?_⟩
  rw [alt_eq_ok, pmap_eq_ok]
  exact .inl ⟨sp n, spaces0_sp h, by simp [sp]⟩

theorem newLineItem_err {s : Str} (h : Next (· ≠ '\n') s) : newLineItem s = .err := by
  unfold newLineItem
  rw [preceded_apply]
  cases s with
  | nil => simp
  | cons c s => rw [char_cons_ne _ (h c s rfl)]; rfl

theorem newLineItem_iff {s r : Str} {x : SpacesContent × Nat} :
    newLineItem s = .ok x r ↔
      ∃ n, s = '\n' :: sp n ++ r ∧ Next (· ≠ ' ') r ∧ x = (.NewLineAndSpaces, asU32 n) := by
  constructor
  · intro h
    cases s with
    | nil => rw [newLineItem_err (next_nil _)] at h; cases h
    | cons c s =>
      by_cases hc : c = '\n'
      · subst hc
        obtain ⟨n, r', rfl, hr⟩ := split_sp s
        rw [← List.cons_append, newLineItem_sp hr] at h
        simp only [Res.ok.injEq] at h
        obtain ⟨rfl, rfl⟩ := h
        exact ⟨n, rfl, hr, rfl⟩
      · rw [newLineItem_err (next_cons.2 hc)] at h; cases h
  · rintro ⟨n, rfl, h, rfl⟩
    exact newLineItem_sp h

theorem noComment_of_ne {s : Str} (h : Next (· ≠ '-') s) : ∀ t, s ≠ '-' :: '-' :: t := by
  rintro t rfl
  exact next_cons.1 h rfl

theorem gapPiece_newline {ind : Nat} {s r : Str} {x : SpacesContent × Nat}
    (h : newLineItem s = .ok x r) : gapPiece ind s = .ok x r := by
  obtain ⟨n, rfl, h1, rfl⟩ := newLineItem_iff.1 h
  unfold gapPiece
  rw [alt_apply, value_apply, spaces_err.2 (by simp [next_cons]), andThen_err, orElse_err,
    alt_apply, pmap_apply, singleLineComment_err.2 (noComment_of_ne (by simp [next_cons])),
    andThen_err, orElse_err, h]

theorem gapPiece_comment {ind : Nat} {t r : Str} (h : '\n' ∉ t) (hr : Next (· = '\n') r) :
    gapPiece ind ('-' :: '-' :: t ++ r) = .ok (.Comment, 0) r := by
  unfold gapPiece
  rw [alt_apply, value_apply, spaces_err.2 (by simp [next_cons]), andThen_err, orElse_err,
    alt_apply, pmap_apply, singleLineComment_iff.2 ⟨rfl, h, hr⟩, andThen_ok, orElse_ok]

theorem gapPiece_spaces {ind n : Nat} {r : Str} (hn : n ≠ 0) (hr : Next (· ≠ ' ') r) :
    gapPiece ind (sp n ++ r) = .ok (.Spaces, ind) r := by
  unfold gapPiece
  rw [alt_apply, value_apply, spaces_iff.2 ⟨rfl, by cases n <;> simp_all [sp], fun c => mem_sp, hr⟩,
    andThen_ok, orElse_ok]

theorem gapPiece_err {ind : Nat} {s : Str} (h : NoGap s) : gapPiece ind s = .err := by
  unfold gapPiece
  rw [alt_apply, value_apply, spaces_err.2 (Next.imp h.1 fun c h => h.1), andThen_err, orElse_err,
    alt_apply, pmap_apply, singleLineComment_err.2 h.2, andThen_err, orElse_err,
    newLineItem_err (Next.imp h.1 fun c h => h.2)]

theorem noGap_nil : NoGap [] := ⟨next_nil _, by simp⟩

/-! ### From grouped rounds to pieces -/

theorem run_newline_piece {ind : Nat} {s r : Str} {vs : List (SpacesContent × Nat)}
    (h : Run newLineItem s vs r) : Run (gapPiece ind) s vs r := by
  induction h with
  | nil => exact .nil _
  | cons h1 h2 _ ih => exact .cons (gapPiece_newline h1) h2 ih

theorem gapItem_pieces {ind : Nat} {s r : Str} {v : List (SpacesContent × Nat)}
    (h : gapItem ind s = .ok v r) : v ≠ [] ∧ Run (gapPiece ind) s v r := by
  unfold gapItem at h
  rcases alt_eq_ok.1 h with h | ⟨h0, h⟩
  · obtain ⟨w, h1, rfl⟩ := value_eq_ok.1 h
    obtain ⟨rfl, h2, h3, h4⟩ := spaces_iff.1 h1
    refine ⟨by simp, .cons (r := r) ?_ ?_ (.nil _)⟩
    · rw [eq_sp h3]
      exact gapPiece_spaces (by simpa using h2) h4
    · cases w with
      | nil => exact absurd rfl h2
      | cons c w => simp; omega
  · rcases alt_eq_ok.1 h with h | ⟨h0', h⟩
    · obtain ⟨w, h1, rfl⟩ := pmap_eq_ok.1 h
      obtain ⟨rfl, h2, h3⟩ := singleLineComment_iff.1 h1
      exact ⟨by simp, .cons (gapPiece_comment h2 h3) (by simp; omega) (.nil _)⟩
    · obtain ⟨x, xs, r1, rfl, h1, h2⟩ := many1_eq_ok.1 h
      obtain ⟨h3, -⟩ := (many0_iff cons_newLineItem).1 h2
      have h5 := lt_of_ok cons_newLineItem h1
      exact ⟨by simp, .cons (gapPiece_newline h1) h5 (run_newline_piece h3)⟩

theorem gapItem_err {ind : Nat} {s : Str} (h : gapItem ind s = .err) : gapPiece ind s = .err := by
  unfold gapItem at h
  unfold gapPiece
  simp only [alt_apply, value_apply, pmap_apply, many1_apply] at h ⊢
  rcases err_or_ok cons_spaces s with e | ⟨_, _, e, -⟩
  · rcases err_or_ok cons_singleLineComment s with e' | ⟨_, _, e', -⟩
    · simp only [e, e', andThen_err, orElse_err] at h ⊢
      rcases err_or_ok cons_newLineItem s with e'' | ⟨v, r, e'', -⟩
      · exact e''
      · simp only [e'', andThen_ok] at h
        rcases good_many0 (cons_newLineItem _).good r (Nat.lt_succ_self _) with g | ⟨_, _, g, -⟩
        · obtain ⟨_, _, g', -⟩ := many0Loop_good (cons_newLineItem _).good (r.length + 1) r
            (Nat.lt_succ_self _) (Nat.lt_succ_self _)
          unfold many0 at g
          rw [g'] at g
          cases g
        · simp [g] at h
    · simp [e, e'] at h
  · simp [e] at h

theorem run_gapItem {ind : Nat} {s r : Str} {v : List (List (SpacesContent × Nat))}
    (h : Run (gapItem ind) s v r) : (∀ x ∈ v, x ≠ []) ∧ Run (gapPiece ind) s v.flatten r := by
  induction h with
  | nil => exact ⟨by simp, .nil _⟩
  | cons h1 h2 _ ih =>
    obtain ⟨g1, g2⟩ := gapItem_pieces h1
    exact ⟨by simpa using ⟨g1, ih.1⟩, by simpa using g2.append ih.2⟩

theorem run_det {α : Type} {p : Parser α} {s r r' : Str} {vs vs' : List α} (h : Run p s vs r)
    (hr : p r = .err) (h' : Run p s vs' r') (hr' : p r' = .err) : vs = vs' ∧ r = r' := by
  have e := many0_ok_of_run h hr
  rw [many0_ok_of_run h' hr'] at e
  simp only [Res.ok.injEq] at e
  exact ⟨e.1.symm, e.2.symm⟩

/-- What `gapCheck` computes, on the flat list of pieces. -/
theorem gapCheck_iff {ind i : Nat} {ir : IR} {v : List (List (SpacesContent × Nat))}
    (hv : ∀ x ∈ v, x ≠ []) (hne : v ≠ []) :
    gapCheck ind ir v = some i ↔
      ∃ x, v.flatten.getLast? = some x ∧ i = x.2 ∧
        ((∃ y ∈ v.flatten, y.1 = .NewLineAndSpaces) → Rel ir x.2 ind) := by
  obtain ⟨v', w, rfl⟩ : ∃ v' w, v = v' ++ [w] := ⟨_, _, (List.dropLast_concat_getLast hne).symm⟩
  have hw : w ≠ [] := hv w (by simp)
  obtain ⟨w', x, rfl⟩ : ∃ w' x, w = w' ++ [x] := ⟨_, _, (List.dropLast_concat_getLast hw).symm⟩
  have hany : ((v' ++ [w' ++ [x]]).any fun subv => subv.any fun x => x.1 == .NewLineAndSpaces) = true ↔
      ∃ y ∈ (v' ++ [w' ++ [x]]).flatten, y.1 = .NewLineAndSpaces := by
    simp only [List.any_eq_true, List.mem_flatten, beq_iff_eq]
    grind
  have hlast : (v' ++ [w' ++ [x]]).flatten.getLast? = some x := by simp
  rw [hlast]
  simp only [gapCheck]
  generalize hb : ((v' ++ [w' ++ [x]]).any fun subv => subv.any fun x => x.1 == .NewLineAndSpaces) = b
  rw [hb] at hany
  rw [← hany]
  simp only [List.getLast?_append, List.getLast?_singleton, Option.getD_some, Option.some_or]
  cases ir <;> cases b <;> simp [Rel] <;> grind

/-- The layout parser in terms of pieces. -/
theorem gap_pieces {ind : Nat} {ir : IR} {s r : Str} {vs : List (SpacesContent × Nat)}
    (h : Run (gapPiece ind) s vs r) (hr : gapPiece ind r = .err) (hne : vs ≠ []) {i : Nat} {r' : Str} :
    gap ind ir s = .ok i r' ↔ r' = r ∧
      ∃ x, vs.getLast? = some x ∧ i = x.2 ∧
        ((∃ y ∈ vs, y.1 = .NewLineAndSpaces) → Rel ir x.2 ind) := by
  unfold gap
  rw [mapRes_eq_ok]
  rcases err_or_ok (fun k => cons_many1 (cons_gapItem k ind)) s with e | ⟨v, t, e, -⟩
  · rw [many1_apply] at e
    rcases err_or_ok (fun k => cons_gapItem k ind) s with g | ⟨w, q, g, -⟩
    · exfalso
      have := gapItem_err g
      cases h with
      | nil => exact hne rfl
      | cons h1 _ _ => rw [h1] at this; cases this
    · rw [g, andThen_ok] at e
      obtain ⟨_, _, g', -⟩ := many0Loop_good (cons_gapItem _ ind).good (q.length + 1) q
          (Nat.lt_succ_self _) (Nat.lt_succ_self _)
      unfold many0 at e
      rw [g'] at e
      cases e
  · obtain ⟨w, ws, r1, rfl, h1, h2⟩ := many1_eq_ok.1 e
    obtain ⟨h3, h4⟩ := (many0_iff (fun k => cons_gapItem k ind)).1 h2
    have h5 := run_gapItem (.cons h1 (lt_of_ok (fun k => cons_gapItem k ind) h1) h3)
    obtain ⟨h6, h7⟩ := run_det h hr h5.2 (gapItem_err h4)
    have hc := gapCheck_iff (ind := ind) (i := i) (ir := ir) h5.1 (by simp)
    rw [e, h6, h7]
    constructor
    · rintro ⟨v', h8, h9⟩
      simp only [Res.ok.injEq] at h8
      obtain ⟨rfl, rfl⟩ := h8
      exact ⟨rfl, hc.1 h9⟩
    · rintro ⟨rfl, h9⟩
      exact ⟨_, rfl, hc.2 h9⟩

/-! ### From lines to pieces -/

/-- A gap without the spaces of its first line. -/
def gapTail : List Line → Line → Str
  | [], last => commentText last.comment
  | l :: ls, last => commentText l.comment ++ '\n' :: gapText ls last

def gapLead : List Line → Line → Nat
  | [], last => last.spaces
  | l :: _, _ => l.spaces

theorem gapText_eq (ls : List Line) (last : Line) :
    gapText ls last = sp (gapLead ls last) ++ gapTail ls last := by
  cases ls <;> simp [gapText, gapTail, gapLead, Line.text]

theorem gapTail_next {ls : List Line} {last : Line} {r : Str}
    (hstop : (last.comment = none ∧ NoGap r) ∨ (last.comment ≠ none ∧ r = [])) :
    Next (· ≠ ' ') (gapTail ls last ++ r) := by
  cases ls with
  | nil =>
    cases h : last.comment with
    | none =>
      simp only [gapTail, h, commentText, List.nil_append]
      rcases hstop with ⟨-, h'⟩ | ⟨h', -⟩
      · exact Next.imp h'.1 fun c h => h.1
      · exact absurd h h'
    | some t => simp [gapTail, h, commentText, next_cons]
  | cons l ls =>
    cases h : l.comment <;> simp [gapTail, h, commentText, next_cons]

theorem run_gapTail (ind : Nat) {ls : List Line} {last : Line} {r : Str}
    (hls : ∀ l ∈ ls, l.ok) (hlast : last.ok)
    (hstop : (last.comment = none ∧ NoGap r) ∨ (last.comment ≠ none ∧ r = [])) :
    ∃ vs, Run (gapPiece ind) (gapTail ls last ++ r) vs r ∧
      (ls = [] → vs = if last.comment = none then [] else [(.Comment, 0)]) ∧
      (ls ≠ [] → (∃ y ∈ vs, y.1 = .NewLineAndSpaces) ∧
        ∃ x, vs.getLast? = some x ∧ x.2 = column last % 4294967296) := by
  induction ls with
  | nil =>
    cases h : last.comment with
    | none =>
      refine ⟨[], by simpa [gapTail, h, commentText] using .nil _, by simp, by simp⟩
    | some t =>
      obtain ⟨h', -⟩ | ⟨-, rfl⟩ := hstop
      · rw [h] at h'; cases h'
      · refine ⟨[(.Comment, 0)], ?_, by simp, by simp⟩
        refine .cons (r := []) ?_ (by simp [gapTail, h, commentText]) (.nil _)
        have := gapPiece_comment (ind := ind) (t := t) (r := []) (hlast t h) (next_nil _)
        simpa [gapTail, h, commentText] using this
  | cons l ls ih =>
    obtain ⟨vs, h1, h2, h3⟩ := ih (fun l hl => hls l (by simp [hl]))
    have hnl : newLineItem ('\n' :: sp (gapLead ls last) ++ (gapTail ls last ++ r)) =
        .ok (.NewLineAndSpaces, asU32 (gapLead ls last)) (gapTail ls last ++ r) :=
      newLineItem_sp (gapTail_next hstop)
    have hrun : Run (gapPiece ind) ('\n' :: gapText ls last ++ r)
        ((.NewLineAndSpaces, asU32 (gapLead ls last)) :: vs) r := by
      refine .cons (r := gapTail ls last ++ r) ?_ ?_ h1
      · rw [gapText_eq]
        have := gapPiece_newline (ind := ind) hnl
        simpa using this
      · rw [gapText_eq]; simp; omega
    have hprop : (∃ y ∈ (SpacesContent.NewLineAndSpaces, asU32 (gapLead ls last)) :: vs,
          y.1 = .NewLineAndSpaces) ∧
        ∃ x, ((SpacesContent.NewLineAndSpaces, asU32 (gapLead ls last)) :: vs).getLast? = some x ∧
          x.2 = column last % 4294967296 := by
      refine ⟨⟨_, List.mem_cons_self, rfl⟩, ?_⟩
      cases ls with
      | nil =>
        rw [h2 rfl]
        cases h : last.comment with
        | none => exact ⟨_, rfl, by simp [column, h, gapLead, asU32]⟩
        | some t => exact ⟨_, rfl, by simp [column, h]⟩
      | cons l' ls' =>
        obtain ⟨-, x, hx, hx'⟩ := h3 (by simp)
        refine ⟨x, ?_, hx'⟩
        cases vs with
        | nil => simp at hx
        | cons a b => simpa using hx
    cases h : l.comment with
    | none =>
      refine ⟨_, ?_, by simp, fun _ => hprop⟩
      simpa [gapTail, h, commentText] using hrun
    | some t =>
      refine ⟨(.Comment, 0) :: (.NewLineAndSpaces, asU32 (gapLead ls last)) :: vs, ?_, by simp,
        fun _ => ?_⟩
      · refine .cons (r := '\n' :: gapText ls last ++ r) ?_ ?_ hrun
        · have := gapPiece_comment (ind := ind) (t := t) (r := '\n' :: gapText ls last ++ r)
            (hls l (by simp) t h) (by simp [next_cons])
          simpa [gapTail, h, commentText] using this
        · simp [gapTail, h, commentText]; omega
      · obtain ⟨⟨y, hy, hy'⟩, x, hx, hx'⟩ := hprop
        exact ⟨⟨y, List.mem_cons_of_mem _ hy, hy'⟩, x, by simpa using hx, hx'⟩

/-- The answer of the layout parser on a gap. -/
theorem gap_of_gap {s r : Str} {ls : List Line} {last : Line} (h : Gap s ls last r)
    (ind : Nat) (ir : IR) {i : Nat} {r' : Str} :
    gap ind ir s = .ok i r' ↔ r' = r ∧
      ((ls = [] ∧ i = if last.comment = none then ind else 0) ∨
        (ls ≠ [] ∧ i = column last % 4294967296 ∧ Rel ir (column last % 4294967296) ind)) := by
  obtain ⟨rfl, hne, hls, hlast, hstop⟩ := h
  obtain ⟨vs, h1, h2, h3⟩ := run_gapTail ind hls hlast hstop
  have hr : gapPiece ind r = .err := by
    rcases hstop with ⟨-, h⟩ | ⟨-, rfl⟩
    · exact gapPiece_err h
    · exact gapPiece_err noGap_nil
  have hrun : Run (gapPiece ind) (gapText ls last ++ r)
      ((if gapLead ls last = 0 then [] else [(.Spaces, ind)]) ++ vs) r := by
    rw [gapText_eq, List.append_assoc]
    split
    · next h => rw [h]; exact h1
    · next h =>
      exact .cons (gapPiece_spaces h (gapTail_next hstop)) (by simp [sp]; omega) h1
  by_cases hl : ls = []
  · subst hl
    have hvs := h2 rfl
    rw [hvs] at hrun
    cases hc : last.comment with
    | none =>
      have hlead : gapLead [] last ≠ 0 := by
        intro h
        apply hne
        rw [gapText_eq, h]
        simp [gapTail, hc, commentText, sp]
      simp only [hc, if_true, if_neg hlead, List.append_nil] at hrun
      rw [gap_pieces hrun hr (by simp)]
      simp
    | some t =>
      simp only [hc, reduceCtorEq, if_false] at hrun
      rw [gap_pieces hrun hr (by simp)]
      simp only [List.getLast?_append, List.getLast?_singleton, Option.some_or]
      have hnn : ¬ ∃ y ∈ (if gapLead [] last = 0 then [] else [(SpacesContent.Spaces, ind)]) ++
          [(SpacesContent.Comment, 0)], y.1 = .NewLineAndSpaces := by
        split <;> simp
      constructor
      · rintro ⟨rfl, x, h, rfl, -⟩
        simp only [Option.some.injEq] at h
        subst h
        simp
      · rintro ⟨rfl, h⟩
        simp only [true_and, reduceCtorEq, if_false, ne_eq, not_true_eq_false, false_and, or_false] at h
        exact ⟨rfl, _, rfl, h, fun h => absurd h hnn⟩
  · obtain ⟨⟨y, hy, hy'⟩, x, hx, hx'⟩ := h3 hl
    have hne' : (if gapLead ls last = 0 then [] else [(SpacesContent.Spaces, ind)]) ++ vs ≠ [] := by
      cases vs with
      | nil => simp at hx
      | cons a b => simp
    rw [gap_pieces hrun hr hne']
    have hlast' : ((if gapLead ls last = 0 then [] else [(SpacesContent.Spaces, ind)]) ++ vs).getLast?
        = some x := by rw [List.getLast?_append, hx]; rfl
    have hnl : ∃ y ∈ (if gapLead ls last = 0 then [] else [(SpacesContent.Spaces, ind)]) ++ vs,
        y.1 = .NewLineAndSpaces := ⟨y, List.mem_append_right _ hy, hy'⟩
    rw [hlast']
    constructor
    · rintro ⟨rfl, x', h, rfl, h'⟩
      simp only [Option.some.injEq] at h
      subst h
      exact ⟨rfl, .inr ⟨hl, hx', hx' ▸ h' hnl⟩⟩
    · rintro ⟨rfl, ⟨h, -⟩ | ⟨-, h, h'⟩⟩
      · exact absurd h hl
      · exact ⟨rfl, x, rfl, h.trans hx'.symm, fun _ => hx' ▸ h'⟩

theorem gap_none {s : Str} (h : NoGap s) (ind : Nat) (ir : IR) : gap ind ir s = .err := by
  rcases err_or_ok (fun k => cons_gap k ind ir) s with e | ⟨v, r, e, -⟩
  · exact e
  · exfalso
    obtain ⟨w, h1, -⟩ := mapRes_eq_ok.1 e
    obtain ⟨x, xs, r1, rfl, h2, -⟩ := many1_eq_ok.1 h1
    obtain ⟨h3, h4⟩ := gapItem_pieces h2
    cases h4 with
    | nil => exact h3 rfl
    | cons h5 _ _ => rw [gapPiece_err h] at h5; cases h5

theorem gapText_ne_nil_of_cons (l : Line) (ls : List Line) (last : Line) :
    gapText (l :: ls) last ≠ [] := by simp [gapText]

/-- Every text starts with no gap or with exactly one maximal gap. -/
theorem gap_exists (s : Str) : NoGap s ∨ ∃ ls last r, Gap s ls last r := by
  by_cases h0 : NoGap s
  · exact .inl h0
  right
  -- the general statement, allowing an empty gap
  suffices H : ∀ n (s : Str), s.length ≤ n → ∃ ls last r, s = gapText ls last ++ r ∧
      (∀ l ∈ ls, l.ok) ∧ last.ok ∧
      ((last.comment = none ∧ NoGap r) ∨ (last.comment ≠ none ∧ r = [])) by
    obtain ⟨ls, last, r, h1, h2, h3, h4⟩ := H s.length s (Nat.le_refl _)
    refine ⟨ls, last, r, h1, fun he => ?_, h2, h3, h4⟩
    rw [he] at h1
    simp only [List.nil_append] at h1
    subst h1
    rcases h4 with ⟨-, h⟩ | ⟨-, rfl⟩
    · exact h0 h
    · exact h0 noGap_nil
  intro n
  induction n with
  | zero =>
    intro s hs
    have : s = [] := List.length_eq_zero_iff.1 (by omega)
    subst this
    exact ⟨[], ⟨0, none⟩, [], rfl, by simp, by simp [Line.ok], .inl ⟨rfl, noGap_nil⟩⟩
  | succ n ih =>
    intro s hs
    obtain ⟨m, r, rfl, hr⟩ := split_sp s
    by_cases hn : NoGap r
    · exact ⟨[], ⟨m, none⟩, r, by simp [gapText, Line.text, commentText], by simp,
        by simp [Line.ok], .inl ⟨rfl, hn⟩⟩
    · -- a comment or a newline
      have hlen : r.length ≤ n + 1 := by simp at hs; omega
      obtain ⟨c, r', hrc, hc, hr'⟩ : ∃ (c : Option Str) (r' : Str), r = commentText c ++ r' ∧
          (∀ t, c = some t → '\n' ∉ t) ∧
          ((∃ q, r' = '\n' :: q) ∨ (c ≠ none ∧ r' = [])) := by
        by_cases hcm : ∃ t, r = '-' :: '-' :: t
        · obtain ⟨t, rfl⟩ := hcm
          obtain ⟨a, b, rfl, h1, h2, -⟩ := reLine_split t
          refine ⟨some a, b, by simp [commentText], by simpa using h1, ?_⟩
          cases b with
          | nil => exact .inr ⟨by simp, rfl⟩
          | cons x b =>
            have := next_cons.1 h2
            exact .inl ⟨b, by rw [this]⟩
        · refine ⟨none, r, by simp [commentText], by simp, .inl ?_⟩
          cases r with
          | nil => exact absurd noGap_nil hn
          | cons x r =>
            by_cases hx : x = '\n'
            · exact ⟨r, by rw [hx]⟩
            · exact absurd ⟨next_cons.2 ⟨hr x r rfl, hx⟩, fun t ht => hcm ⟨t, ht⟩⟩ hn
      rcases hr' with ⟨q, rfl⟩ | ⟨hc', rfl⟩
      · have hq : q.length ≤ n := by
          rw [hrc] at hlen; simp at hlen; omega
        obtain ⟨ls, last, r'', h1, h2, h3, h4⟩ := ih q hq
        refine ⟨⟨m, c⟩ :: ls, last, r'', ?_, ?_, h3, h4⟩
        · rw [hrc, h1]; simp [gapText, Line.text]
        · intro l hl
          rcases List.mem_cons.1 hl with rfl | hl
          · exact hc
          · exact h2 l hl
      · refine ⟨[], ⟨m, c⟩, [], ?_, by simp, hc, .inr ⟨hc', rfl⟩⟩
        rw [hrc]; simp [gapText, Line.text]

/-- C09: the layout parser accepts exactly a maximal gap. -/
theorem gap_iff {ind i : Nat} {ir : IR} {s r : Str} :
    gap ind ir s = .ok i r ↔ ∃ ls last, Gap s ls last r ∧
      ((ls = [] ∧ i = if last.comment = none then ind else 0) ∨
        (ls ≠ [] ∧ i = column last % 4294967296 ∧ Rel ir (column last % 4294967296) ind)) := by
  constructor
  · intro h
    rcases gap_exists s with h0 | ⟨ls, last, r', hg⟩
    · rw [gap_none h0] at h; cases h
    · obtain ⟨rfl, h'⟩ := (gap_of_gap hg ind ir).1 h
      exact ⟨ls, last, hg, h'⟩
  · rintro ⟨ls, last, hg, h⟩
    exact (gap_of_gap hg ind ir).2 ⟨rfl, h⟩

end ElmParser
