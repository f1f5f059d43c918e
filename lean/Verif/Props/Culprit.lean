import Verif.Props.Chunks
import Verif.Props.Report
import Verif.Props.Agree

/-! C86: the report on a file that is refused begins at or in the first declaration that is bad. -/
namespace ElmParser
open Spec

/-- The part of the text that the report on it quotes; all of it if the report quotes nothing. -/
def unread (c : Str) : Str :=
  match failure c with
  | .eof r => r
  | .other => c

namespace Culprit

theorem append {xs ys : List Statement} {s w t r : Str} (h : Listing xs s (w ++ t)) (hw : Whites w) (hne : w ≠ [])
    (ht : Listing ys t r) : Listing (xs ++ ys) s r := by
  generalize e : w ++ t = u at h
  induction h with
  | last h => subst e; exact .more h hw hne ht
  | more h hw' hne' _ ih => exact .more h hw' hne' (ih e)

theorem rows_append (ps qs : List (Nat × Str)) : rows (ps ++ qs) = rows ps ++ rows qs := by
  induction ps with
  | nil => rfl
  | cons p ps ih => simp [rows, ih]

theorem whites_lines (k : Nat) : Whites ('\n' :: List.replicate k '\n') := by
  intro c hc
  rcases List.mem_cons.1 hc with rfl | hc
  · decide
  · rw [(List.mem_replicate.1 hc).2]; decide

/-- A bad declaration, and how far it is read, whatever follows it. -/
theorem bad {c : Str} (h : Piece c) (he : file c = .err) :
    (failure c = .other ∧ ∀ b, Next (· = '\n') b → StmtStop b → Below 1 b → statement (c ++ b) = .err) ∨
    ∃ x v y w, failure c = .eof (y :: w) ∧ Whites v ∧ ¬ White y ∧ (∀ b, Next (· = '\n') b → statement (y :: (w ++ b)) = .err) ∧
      ∀ b, Next (· = '\n') b → StmtStop b → Below 1 b → statement (c ++ b) = .ok x (v ++ y :: (w ++ b)) := by
  rcases h with ⟨h, hw⟩ | ⟨x, h, hx⟩
  · have head := (chunk_head h []).white
    rw [List.append_nil] at head
    rcases err_or_ok cons_statement c with e | ⟨x, r, e, -⟩
    · refine .inl ⟨(C47_nothing (w := []) (by simp) (fun c u e => next_cons.1 (e ▸ head.1)) e).2, fun b hb hs hB => ?_⟩
      rcases err_or_ok cons_statement (c ++ b) with e' | ⟨x, r, e', -⟩
      · exact e'
      · obtain ⟨w, h1, -⟩ := (C82_alone h hb hs hB x r).1 e'
        rw [e] at h1; cases h1
    · rcases hw x r e with rfl | ⟨v, y, w, rfl, h2, h3, h4⟩
      · have := C78_join (x, c) [] (by simpa using ⟨e, chunk_flat h e⟩)
        simp only [List.map_nil, rows, List.append_nil] at this
        rw [this] at he; cases he
      · have no : ∀ b, Next (· = '\n') b → statement (y :: (w ++ b)) = .err := fun b hb => by
          rcases err_or_ok cons_statement (y :: (w ++ b)) with e' | ⟨x, r, e', -⟩
          · exact e'
          · exact absurd (C43_statement e') (startsStatement_edge hb h4)
        refine .inr ⟨x, v, y, w, ?_, h2, h3, no, fun b hb hs hB => (C82_alone h hb hs hB x _).2 ⟨_, e, by simp⟩⟩
        have := no [] (next_nil _)
        rw [List.append_nil] at this
        exact (C47_stopped (w := []) (by simp) (.last e) h2 (fun c u e => by cases e; exact h3) (.inr this) (by simp)).2
  · have := C78_join (x, c) [] (by simpa using ⟨h, .inl hx⟩)
    simp only [List.map_nil, rows, List.append_nil] at this
    rw [this] at he; cases he

theorem good {c : Str} (h : Piece c) (he : file c ≠ .err) : ∃ x, ∀ b, Next (· = '\n') b → StmtStop b → Below 1 b →
    statement (c ++ b) = .ok x b := by
  rcases piece_cases h with ⟨x, h1, h2⟩ | ⟨-, h1⟩
  · exact ⟨x, fun b hb hs hB => piece_below h1 h2 hb hs hB⟩
  · have := h1 [] (next_nil _) stmtStop_nil .nil
    rw [List.append_nil] at this
    exact absurd this he

theorem before (p : Str) (ps zs : List (Nat × Str)) (h : ∀ c ∈ p :: ps.map (·.2), Piece c ∧ file c ≠ .err)
    (hz : ∀ c ∈ zs, HeadOk c.2) : ∃ xs, Listing xs (p ++ rows (ps ++ zs)) (rows zs) := by
  induction ps generalizing p with
  | nil =>
    obtain ⟨x, hx⟩ := good (h p (by simp)).1 (h p (by simp)).2
    exact ⟨[x], .last (hx _ (rows_edge _) (rows_stop hz) (rows_below hz))⟩
  | cons q ps ih =>
    obtain ⟨k, q⟩ := q
    obtain ⟨xs, ih⟩ := ih q fun c hc => h c (by simp only [List.map_cons]; exact List.mem_cons_of_mem _ hc)
    obtain ⟨x, hx⟩ := good (h p (by simp)).1 (h p (by simp)).2
    have hok : ∀ c ∈ (k, q) :: ps ++ zs, HeadOk c.2 := fun c hc => by
      rcases List.mem_append.1 hc with hc | hc
      · exact piece_headOk (h c.2 (List.mem_cons_of_mem _ (List.mem_map_of_mem hc))).1
      · exact hz c hc
    refine ⟨x :: xs, .more (w := '\n' :: List.replicate k '\n') (t := q ++ rows (ps ++ zs)) ?_ (whites_lines k) (by simp) ih⟩
    rw [hx _ (rows_edge _) (rows_stop hok) (rows_below hok)]
    simp [rows]

end Culprit

/-- **C86.** If declarations that are right are followed by one that is not, the report quotes the file from where the report on that
declaration alone begins, or from the beginning of the declaration if nothing of it is read, to the end. -/
theorem C86_report (p c : Str) (k : Nat) (ps qs : List (Nat × Str)) (h : ∀ d ∈ p :: (ps ++ (k, c) :: qs).map (·.2), Piece d)
    (hg : ∀ d ∈ p :: ps.map (·.2), file d ≠ .err) (hc : file c = .err) :
    failure (p ++ rows (ps ++ (k, c) :: qs)) = .eof (unread c ++ rows qs) := by
  have hP : ∀ d ∈ ps ++ (k, c) :: qs, Piece d.2 := fun d hd => h d.2 (List.mem_cons_of_mem _ (List.mem_map_of_mem hd))
  have hz : ∀ d ∈ (k, c) :: qs, HeadOk d.2 := fun d hd => piece_headOk (hP d (List.mem_append_right _ hd))
  have hq : ∀ d ∈ qs, HeadOk d.2 := fun d hd => hz d (List.mem_cons_of_mem _ hd)
  obtain ⟨xs, hl⟩ := Culprit.before p ps ((k, c) :: qs) (fun d hd => ⟨h d (by
    rcases List.mem_cons.1 hd with rfl | hd
    · simp
    · rw [List.map_append]; exact List.mem_cons_of_mem _ (List.mem_append_left _ hd)), hg d hd⟩) hz
  have er : rows ((k, c) :: qs) = ('\n' :: List.replicate k '\n') ++ (c ++ rows qs) := by simp [rows]
  rw [er] at hl
  have hpc : Piece c := hP (k, c) (by simp)
  unfold unread
  rcases Culprit.bad hpc hc with ⟨h1, h2⟩ | ⟨x, v, y, w, h1, h2, h3, h4, h5⟩
  · rw [h1]
    have e := h2 _ (rows_edge qs) (rows_stop hq) (rows_below hq)
    have hw : Next (fun c => ¬ White c) (c ++ rows qs) ∧ c ++ rows qs ≠ [] := by
      rcases piece_headOk hpc with ⟨t, rfl, -⟩ | h
      · exact ⟨next_cons.2 (by decide), by simp⟩
      · exact (h _).white
    exact (C47_stopped (w := []) (by simp) hl (Culprit.whites_lines k) (fun c u e => next_cons.1 (e ▸ hw.1)) (.inr e) hw.2).2
  · rw [h1]
    have e := h5 _ (rows_edge qs) (rows_stop hq) (rows_below hq)
    have hl' := Culprit.append hl (Culprit.whites_lines k) (by simp) (.last e)
    exact (C47_stopped (w := []) (by simp) hl' h2 (fun c u e => by cases e; exact h3) (.inr (h4 _ (rows_edge qs))) (by simp)).2

/-- **C86.** The same if the first declaration of the file is bad, except that nothing is quoted if nothing is read. -/
theorem C86_first (c : Str) (qs : List (Nat × Str)) (h : ∀ d ∈ c :: qs.map (·.2), Piece d) (hc : file c = .err) :
    failure (c ++ rows qs) = match failure c with | .eof r => .eof (r ++ rows qs) | .other => .other := by
  have hq : ∀ d ∈ qs, HeadOk d.2 := fun d hd => piece_headOk (h d.2 (List.mem_cons_of_mem _ (List.mem_map_of_mem hd)))
  have hpc := h c (by simp)
  rcases Culprit.bad hpc hc with ⟨h1, h2⟩ | ⟨x, v, y, w, h1, h2, h3, h4, h5⟩
  · rw [h1]
    have e := h2 _ (rows_edge qs) (rows_stop hq) (rows_below hq)
    have hw : Next (fun c => ¬ White c) (c ++ rows qs) := by
      rcases piece_headOk hpc with ⟨t, rfl, -⟩ | h
      · exact next_cons.2 (by decide)
      · exact (h _).white.1
    exact (C47_nothing (w := []) (by simp) (fun c u e => next_cons.1 (e ▸ hw)) e).2
  · rw [h1]
    have e := h5 _ (rows_edge qs) (rows_stop hq) (rows_below hq)
    exact (C47_stopped (w := []) (by simp) (.last e) h2 (fun c u e => by cases e; exact h3) (.inr (h4 _ (rows_edge qs))) (by simp)).2

/-- **C86.** So the quotation begins in the first bad declaration, neither before nor after it. -/
theorem C86_place (p c : Str) (k : Nat) (ps qs : List (Nat × Str)) (h : ∀ d ∈ p :: (ps ++ (k, c) :: qs).map (·.2), Piece d)
    (hg : ∀ d ∈ p :: ps.map (·.2), file d ≠ .err) (hc : file c = .err) :
    ∃ u v, c = u ++ v ∧ v ≠ [] ∧ failure (p ++ rows (ps ++ (k, c) :: qs)) = .eof (v ++ rows qs) := by
  rw [C86_report p c k ps qs h hg hc]
  have hpc : Piece c := h c (by simp)
  unfold unread
  cases e : failure c with
  | other =>
    refine ⟨[], c, rfl, ?_, rfl⟩
    rcases piece_headOk hpc with ⟨t, rfl, -⟩ | h
    · simp
    · have := (h []).white.2; rwa [List.append_nil] at this
  | eof r =>
    obtain ⟨xs, d, e', -⟩ := C47_before e
    refine ⟨d, r, e', ?_, rfl⟩
    rintro rfl
    rcases Culprit.bad hpc hc with ⟨h1, -⟩ | ⟨x, v, y, w, h1, -⟩ <;> rw [h1] at e <;> cases e

/-- **C86.** The report depends neither on the declarations before the first bad one nor on the blank lines between them. -/
theorem C86_before (p p' c : Str) (k k' : Nat) (ps ps' qs : List (Nat × Str))
    (h : ∀ d ∈ p :: (ps ++ (k, c) :: qs).map (·.2), Piece d) (hg : ∀ d ∈ p :: ps.map (·.2), file d ≠ .err)
    (h' : ∀ d ∈ p' :: ps'.map (·.2), Piece d ∧ file d ≠ .err) (hc : file c = .err)
    {read : Str → Read} {prog f f' : Str} (hr : read f = .contents (p ++ rows (ps ++ (k, c) :: qs)))
    (hr' : read f' = .contents (p' ++ rows (ps' ++ (k', c) :: qs))) :
    checkMain read [prog, f] = checkMain read [prog, f'] ∧
      checkMain read [prog, f] = ⟨[.error (.eof (unread c ++ rows qs))], .code 0⟩ := by
  have h2 : ∀ d ∈ p' :: (ps' ++ (k', c) :: qs).map (·.2), Piece d := by
    intro d hd
    simp only [List.map_append, List.map_cons, List.mem_cons, List.mem_append] at hd
    rcases hd with hd | hd | hd
    · exact (h' d (by simp [hd])).1
    · exact (h' d (List.mem_cons_of_mem _ hd)).1
    · exact h d (by simp only [List.map_append, List.map_cons, List.mem_cons, List.mem_append]; exact .inr (.inr hd))
  have one : ∀ p k (ps : List (Nat × Str)) f, (∀ d ∈ p :: (ps ++ (k, c) :: qs).map (·.2), Piece d) → (∀ d ∈ p :: ps.map (·.2), file d ≠ .err) →
      read f = .contents (p ++ rows (ps ++ (k, c) :: qs)) → checkMain read [prog, f] = ⟨[.error (.eof (unread c ++ rows qs))], .code 0⟩ := by
    intro p k ps f h hg hr
    have e : file (p ++ rows (ps ++ (k, c) :: qs)) = .err := (C82_refused p _ h).2 ⟨c, by simp, hc⟩
    rcases C32_readable (prog := prog) [] hr with ⟨sts, e', -⟩ | ⟨-, e'⟩
    · rw [e] at e'; cases e'
    · rw [e', C86_report p c k ps qs h hg hc]
  have e1 := one p k ps f h hg hr
  exact ⟨e1.trans (one p' k' ps' f' h2 (fun d hd => (h' d hd).2) hr').symm, e1⟩

/-- **C86.** The dumper prints the same report, or only that the file cannot be parsed. -/
theorem C86_dump (p c : Str) (k : Nat) (ps qs : List (Nat × Str)) (h : ∀ d ∈ p :: (ps ++ (k, c) :: qs).map (·.2), Piece d)
    (hg : ∀ d ∈ p :: ps.map (·.2), file d ≠ .err) (hc : file c = .err) {read : Str → Read} {f : Str}
    (hr : read f = .contents (p ++ rows (ps ++ (k, c) :: qs))) :
    dumpOne read false f = ⟨[.error (.eof (unread c ++ rows qs))], .code 0⟩ ∧ dumpOne read true f = ⟨[.failed f], .code 0⟩ := by
  have e : checkMain read [[], f] = ⟨[.error (.eof (unread c ++ rows qs))], .code 0⟩ := by
    have e : file (p ++ rows (ps ++ (k, c) :: qs)) = .err := (C82_refused p _ h).2 ⟨c, by simp, hc⟩
    rcases C32_readable (prog := []) [] hr with ⟨sts, e', -⟩ | ⟨-, e'⟩
    · rw [e] at e'; cases e'
    · rw [e', C86_report p c k ps qs h hg hc]
  rcases C57_agree read [] f [] with ⟨sts, -, -, h3⟩ | ⟨g, h1, h2, h3⟩ | ⟨-, -, h3⟩
  · rw [e] at h3; cases h3
  · rw [e] at h3
    cases h3
    exact ⟨h1, h2⟩
  · rw [e] at h3; cases h3

/-! ### Examples -/

/-- The report begins at `main`, of which nothing is read. -/
example : failure (c!"import A" ++ rows ([(2, c!"port p : Int -> Int")] ++ (1, c!"main =\n    if a then b") :: [(0, c!"type A = B | c")])) =
    .eof c!"main =\n    if a then b\ntype A = B | c" :=
  C86_report _ _ _ _ _ (Chunks.ex_all (by simp)) (by
    intro d hd
    simp only [List.map_cons, List.map_nil, List.mem_cons, List.not_mem_nil, or_false] at hd
    rcases hd with rfl | rfl <;> exact fun h => by cases h) rfl
/-- The report begins within the type. -/
example : failure (c!"import A" ++ rows ([] ++ (1, c!"type A = B | c") :: [(0, c!"main =\n    f x")])) = .eof c!"| c\nmain =\n    f x" :=
  C86_report _ _ _ _ _ (Chunks.ex_all (by simp)) (by
    intro d hd
    simp only [List.map_nil, List.mem_cons, List.not_mem_nil, or_false] at hd
    rcases hd with rfl; exact fun h => by cases h) rfl
example : failure (c!"type A = B | c" ++ rows [(1, c!"import A")]) = .eof c!"| c\n\nimport A" :=
  C86_first _ _ (Chunks.ex_all (by simp)) rfl
example : failure (c!"main =\n    if a then b" ++ rows [(1, c!"import A")]) = .other :=
  C86_first _ _ (Chunks.ex_all (by simp)) rfl
example := C86_place c!"import A" c!"type A = B | c" 1 [(2, c!"port p : Int -> Int")] [(0, c!"main =\n    if a then b")]
  (Chunks.ex_all (by simp)) (by
    intro d hd
    simp only [List.map_cons, List.map_nil, List.mem_cons, List.not_mem_nil, or_false] at hd
    rcases hd with rfl | rfl <;> exact fun h => by cases h) rfl
example := C86_before c!"import A" c!"main =\n    f x" c!"type A = B | c" 1 3 [] [] [(0, c!"main =\n    f x")] (Chunks.ex_all (by simp))
  (by intro d hd; rcases List.mem_singleton.1 hd with rfl; exact fun h => by cases h)
  (by intro d hd; rcases List.mem_singleton.1 hd with rfl; exact ⟨Chunks.ex_good, fun h => by cases h⟩) rfl
  (read := fun f => if f = c!"a" then .contents c!"import A\n\ntype A = B | c\nmain =\n    f x"
    else .contents c!"main =\n    f x\n\n\n\ntype A = B | c\nmain =\n    f x") (prog := c!"check") (f := c!"a") (f' := c!"b") rfl rfl
example := C86_dump c!"import A" c!"type A = B | c" 1 [] [(0, c!"main =\n    f x")] (Chunks.ex_all (by simp))
  (by intro d hd; rcases List.mem_singleton.1 hd with rfl; exact fun h => by cases h) rfl
  (read := fun _ => .contents c!"import A\n\ntype A = B | c\nmain =\n    f x") (f := c!"a.elm") rfl

end ElmParser
