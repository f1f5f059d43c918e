import Verif.Proofs.Parts

/-! C80: blocks in the usual layout are read part by part. -/
namespace ElmParser
open Spec

/-- **C80.** A branch with its body on a new line, further to the right, is read exactly if the body is, alone and with its
column as indentation; lines that are indented less than the body are not looked at. -/
theorem C80_branch {i : Nat} {p : Part (Expr × Expr)} {b : Str} (hp : p.Laid BranchHead i) (hb : Below p.col b)
    (x : Expr × Expr) (r : Str) : caseBranch expression i (p.text ++ b) = .ok x r ↔
      ∃ e w, expression p.col p.body = .ok e w ∧ x = p.make e ∧ r = w ++ b :=
  part_iff reads_branch hp hb x r

/-- **C80.** The same for an entry of a `let`. -/
theorem C80_entry {i : Nat} {p : Part LetEntry} {b : Str} (hp : p.Laid EntryHead i) (hb : Below p.col b)
    (x : LetEntry) (r : Str) : letEntry expression i (p.text ++ b) = .ok x r ↔
      ∃ e w, expression p.col p.body = .ok e w ∧ x = p.make e ∧ r = w ++ b :=
  part_iff reads_entry hp hb x r

theorem case_start {ind i : Nat} (hi : ind ≤ i) (hi' : i < 4294967296) {e : Expr} {d s : Str} (hd : SrcAt True ind 0 (.expr e) d)
    (hs : NoGap s) : expression ind (c!"case" ++ (c!" " ++ (d ++ (c!" " ++ (c!"of" ++ ('\n' :: sp i ++ s)))))) =
      (casesP expression i s).andThen fun bs r => .ok (.Case e bs) r := by
  have h1 := gapTxt_space ind .GTE
  have h3 := gapTxt_line (ind := ind) (ir := .GTE) hi hi'
  rw [expression_case (identEnd_gap h1)]
  unfold caseExpression
  rw [bind_apply, tag_append, andThen_ok, bind_apply, h1.gap (src_starts hd trivial).noGap, andThen_ok, bind_apply,
    src_complete hd (Nat.zero_le _) _ (stop_keyword h1 (by decide) (identEnd_gap h3)), andThen_ok, bind_apply,
    h1.gap (noGap_keyword (by decide)), andThen_ok, bind_apply, tag_append, andThen_ok, bind_apply, h3.gap hs, andThen_ok, bind_apply]
  cases casesP expression i s <;> rfl

/-- **C80.** A `case` whose branches have bodies that are read as a whole, each alone and with its column as indentation,
is read as the `case` of these branches; whatever the bodies are, and whatever follows on lines that are indented less
than the branches. -/
theorem C80_case {ind i : Nat} (hi : ind ≤ i) (hi' : i < 4294967296) {e : Expr} {d r : Str} (hd : Src True ind (.expr e) d)
    {ps : List (Part (Expr × Expr) × Expr)} (hne : ps ≠ [])
    (h : ∀ p ∈ ps, p.1.Laid BranchHead i ∧ expression p.1.col p.1.body = .ok p.2 []) (hr : Below i r) :
    expression ind (caseText i d (ps.map (·.1.text)) ++ r) = .ok (.Case e (ps.map fun p => p.1.make p.2)) r := by
  cases ps with
  | nil => exact absurd rfl hne
  | cons p ps =>
    have e1 : caseText i d ((p :: ps).map (·.1.text)) ++ r =
        c!"case" ++ (c!" " ++ (d ++ (c!" " ++ (c!"of" ++ ('\n' :: sp i ++ (p.1.text ++ (onLines i (texts ps) ++ r))))))) := by
      simp [caseText, onLines, texts]
    have e2 := parts_list reads_branch (r := r) hi' h (fun q hq => hr.mono (Nat.le_of_lt (h q hq).1.right))
      (by rw [preceded_apply, Of.gap_edge hr (Nat.le_refl _)]; rfl)
    rw [e1, case_start hi hi' hd.low (part_noGap reads_branch (h p (by simp)).1 _)]
    unfold casesP
    rw [e2]
    rfl

/-- **C80.** If the body of a later branch is refused, the `case` ends before this branch: it has the branches before, and the
text from the line end on is left over. -/
theorem C80_case_stop {ind i : Nat} (hi : ind ≤ i) (hi' : i < 4294967296) {e : Expr} {d b : Str} (hd : Src True ind (.expr e) d)
    {ps : List (Part (Expr × Expr) × Expr)} {q : Part (Expr × Expr)} (hne : ps ≠ [])
    (h : ∀ p ∈ ps, p.1.Laid BranchHead i ∧ expression p.1.col p.1.body = .ok p.2 [])
    (hq : q.Laid BranchHead i) (hq' : expression q.col q.body = .err) (hb : Below q.col b) :
    expression ind (caseText i d (ps.map (·.1.text)) ++ onLines i [q.text] ++ b) =
      .ok (.Case e (ps.map fun p => p.1.make p.2)) (onLines i [q.text] ++ b) := by
  cases ps with
  | nil => exact absurd rfl hne
  | cons p ps =>
    have e0 : onLines i [q.text] ++ b = '\n' :: (sp i ++ (q.text ++ b)) := by simp [onLines]
    have e1 : caseText i d ((p :: ps).map (·.1.text)) ++ onLines i [q.text] ++ b =
        c!"case" ++ (c!" " ++ (d ++ (c!" " ++ (c!"of" ++ ('\n' :: sp i ++ (p.1.text ++ (onLines i (texts ps) ++
          (onLines i [q.text] ++ b)))))))) := by
      simp [caseText, onLines, texts]
    have e2 := parts_list reads_branch (r := onLines i [q.text] ++ b) hi' h
      (fun p hp => by rw [e0]; exact part_below reads_branch hq (h p hp).1.right b)
      (by rw [e0, preceded_apply, (gap_part reads_branch hi' hq b i (Nat.le_refl _)).1, andThen_ok, part_err reads_branch hq hb hq'])
    rw [e1, case_start hi hi' hd.low (part_noGap reads_branch (h p (by simp)).1 _)]
    unfold casesP
    rw [e2]
    rfl

/-- **C80.** If the body of the first branch is refused, so is the `case`. -/
theorem C80_case_refused {ind i : Nat} (hi : ind ≤ i) (hi' : i < 4294967296) {e : Expr} {d b : Str} (hd : Src True ind (.expr e) d)
    {q : Part (Expr × Expr)} (hq : q.Laid BranchHead i) (hq' : expression q.col q.body = .err) (hb : Below q.col b) :
    expression ind (caseText i d [q.text] ++ b) = .err := by
  have e1 : caseText i d [q.text] ++ b =
      c!"case" ++ (c!" " ++ (d ++ (c!" " ++ (c!"of" ++ ('\n' :: sp i ++ (q.text ++ b)))))) := by
    simp [caseText, onLines]
  rw [e1, case_start hi hi' hd.low (part_noGap reads_branch hq _)]
  unfold casesP
  rw [(sepNonemptyList_err_iff (fun k => cons_gap k i .EQ) (reads_branch.cons i)).2 (part_err reads_branch hq hb hq')]
  rfl

theorem let_start {ind i : Nat} (hi : ind ≤ i) (hi' : i < 4294967296) {s : Str} (hs : NoGap s) :
    expression ind (c!"let" ++ ('\n' :: sp i ++ s)) = (letBindings expression i s).andThen fun ls s' =>
      (gap ind .GTE s').andThen fun _ s' => (tag c!"in" s').andThen fun _ s' => (gap ind .GTE s').andThen fun _ s' =>
        (expression ind s').andThen fun e r => .ok (.Let ls e) r := by
  have h1 := gapTxt_line (ind := ind) (ir := .GTE) hi hi'
  rw [expression_let (identEnd_gap h1)]
  unfold letExpression
  rw [bind_apply, tag_append, andThen_ok, bind_apply, h1.gap hs, andThen_ok, bind_apply]
  rfl

/-- **C80.** A `let` whose entries have bodies that are read as a whole, each alone and with its column as indentation, is
read exactly if an expression is read after `in`, and is then the `let` of these entries and this expression; whatever the
bodies are. -/
theorem C80_let {ind i j : Nat} (hi : ind ≤ i) (hi' : i < 4294967296) (hj : ind ≤ j) (hj' : j < 4294967296) {d : Str} (hd : NoGap d)
    {ps : List (Part LetEntry × Expr)} (hne : ps ≠ [])
    (h : ∀ p ∈ ps, p.1.Laid EntryHead i ∧ j < p.1.col ∧ expression p.1.col p.1.body = .ok p.2 []) (x : Expr) (r : Str) :
    expression ind (letText i j (ps.map (·.1.text)) d) = .ok x r ↔
      ∃ e, expression ind d = .ok e r ∧ x = .Let (ps.map fun p => p.1.make p.2) e := by
  cases ps with
  | nil => exact absurd rfl hne
  | cons p ps =>
    have hg := gapTxt_line (ind := ind) (ir := .GTE) hj hj'
    have h3 := gapTxt_space ind .GTE
    have hn : NoGap (c!"in" ++ (c!" " ++ d)) := noGap_keyword (by decide)
    have e1 : letText i j ((p :: ps).map (·.1.text)) d =
        c!"let" ++ ('\n' :: sp i ++ (p.1.text ++ (onLines i (texts ps) ++ ('\n' :: sp j ++ (c!"in" ++ (c!" " ++ d)))))) := by
      simp [letText, onLines, texts]
    have e2 : letBindings expression i (p.1.text ++ (onLines i (texts ps) ++ ('\n' :: sp j ++ (c!"in" ++ (c!" " ++ d))))) =
        .ok (vals (p :: ps)) ('\n' :: sp j ++ (c!"in" ++ (c!" " ++ d))) := by
      refine parts_list reads_entry hi' (fun q hq => ⟨(h q hq).1, (h q hq).2.2⟩)
        (fun q hq => below_line (h q hq).2.1 hn (by simp)) ?_
      rw [preceded_apply]
      rcases err_or_ok (fun k => cons_gap k i .EQ) ('\n' :: sp j ++ (c!"in" ++ (c!" " ++ d))) with e | ⟨k, u, e, -⟩
      · rw [e]; rfl
      · obtain ⟨ls', n, hgap, -⟩ := hg.isGap hn
        obtain ⟨rfl, -⟩ := (gap_of_gap hgap i .EQ).1 e
        rw [e, andThen_ok, letEntry_in (identEnd_gap h3)]
    rw [e1, let_start hi hi' (part_noGap reads_entry (h p (by simp)).1 _), e2, andThen_ok, hg.gap hn, andThen_ok, tag_append,
      andThen_ok, h3.gap hd, andThen_ok]
    cases expression ind d with
    | ok e r' =>
      simp only [andThen_ok, Res.ok.injEq]
      constructor
      · rintro ⟨rfl, rfl⟩; exact ⟨e, ⟨rfl, rfl⟩, rfl⟩
      · rintro ⟨e', ⟨rfl, rfl⟩, rfl⟩; exact ⟨rfl, rfl⟩
    | _ => exact ⟨nofun, fun ⟨_, h, _⟩ => nomatch h⟩

/-- No entry starts with the word `in`. -/
theorem entryHead_in {i m : Nat} {mk : Expr → LetEntry} {h s t : Str} (hh : EntryHead i m mk h) (e : h ++ s = c!"in" ++ t) :
    ¬ Next (fun c => ¬ IdentChar c) t := by
  intro ht
  have hn : functionNameOrOp (c!"in" ++ t) = .err := by
    unfold functionNameOrOp
    have e := loName_keyword (k := c!"in") (by decide) ht
    simp only [List.cons_append, List.nil_append] at e ⊢
    rw [alt_apply, e, orElse_err, delimited_apply, char_cons_ne _ (by decide)]
    rfl
  have h1 : letBindingTarget expression i (c!"in" ++ t) = .err := by
    unfold letBindingTarget
    have e := variableP_keyword (k := c!"in") (by decide) ht
    simp only [List.cons_append, List.nil_append] at e ⊢
    simp only [alt_apply, e, list_err (c := 'i') (t := 'n' :: t) (by decide),
      tuple_err (c := 'i') (t := 'n' :: t) (by decide), simplifiedRecord_err (c := 'i') (t := 'n' :: t) (by decide), orElse_err]
  cases hh with
  | @binding t' c w g hc hw hg =>
    have := src_complete hc _ (termStop_spaces (r := '=' :: (g ++ s)) hw)
    simp only [List.append_assoc, List.cons_append, List.nil_append] at e h1
    rw [e, h1] at this
    cases this
  | @function sg n as h g hh h' hg =>
    cases hh with
    | @plain _ _ m cs w hn' ha hw =>
      have := functionNameOrOp_ok hn' (fargs_termStop ha (termStop_spaces (r := '=' :: (g ++ s)) hw)).ident
      simp only [List.append_assoc, List.cons_append, List.nil_append] at e hn
      rw [e, hn] at this
      cases this
    | @signed _ _ h n' m' w g' i' t' c k hn' hw hg' ht' hk hh =>
      have := functionNameOrOp_ok hn' (termStop_spaces (r := ':' :: (g' ++ (c ++ '\n' :: (sp k ++ (h ++ (g ++ s)))))) hw).ident
      simp only [List.append_assoc, List.cons_append, List.nil_append] at e hn
      rw [e, hn] at this
      cases this

/-- **C80.** If the body of any entry is refused, so is the `let`. -/
theorem C80_let_refused {ind i : Nat} (hi : ind ≤ i) (hi' : i < 4294967296) {b : Str} {ps : List (Part LetEntry × Expr)} {q : Part LetEntry}
    (h : ∀ p ∈ ps, p.1.Laid EntryHead i ∧ expression p.1.col p.1.body = .ok p.2 [])
    (hq : q.Laid EntryHead i) (hq' : expression q.col q.body = .err) (hb : Below q.col b) :
    expression ind (c!"let" ++ onLines i (ps.map (·.1.text) ++ [q.text]) ++ b) = .err := by
  cases ps with
  | nil =>
    have e1 : c!"let" ++ onLines i (([] : List (Part LetEntry × Expr)).map (·.1.text) ++ [q.text]) ++ b =
        c!"let" ++ ('\n' :: sp i ++ (q.text ++ b)) := by simp [onLines]
    rw [e1, let_start hi hi' (part_noGap reads_entry hq _)]
    unfold letBindings
    rw [(sepNonemptyList_err_iff (fun k => cons_gap k i .EQ) (reads_entry.cons i)).2 (part_err reads_entry hq hb hq')]
    rfl
  | cons p ps =>
    have e0 : ∀ ps : List (Part LetEntry × Expr), onLines i (ps.map (·.1.text) ++ [q.text]) ++ b =
        onLines i (texts ps) ++ ('\n' :: (sp i ++ (q.text ++ b))) := by
      intro ps
      induction ps with
      | nil => simp [onLines]
      | cons p ps ih => simp only [List.map_cons, List.cons_append, onLines, List.append_assoc] at ih ⊢; rw [ih]
    have e1 : c!"let" ++ onLines i ((p :: ps).map (·.1.text) ++ [q.text]) ++ b =
        c!"let" ++ ('\n' :: sp i ++ (p.1.text ++ (onLines i (texts ps) ++ ('\n' :: (sp i ++ (q.text ++ b)))))) := by
      rw [List.append_assoc, e0]
      simp [onLines, texts]
    have e2 := parts_list reads_entry (r := '\n' :: (sp i ++ (q.text ++ b))) hi' h
      (fun p hp => part_below reads_entry hq (h p hp).1.right b)
      (by rw [preceded_apply, (gap_part reads_entry hi' hq b i (Nat.le_refl _)).1, andThen_ok, part_err reads_entry hq hb hq'])
    rw [e1, let_start hi hi' (part_noGap reads_entry (h p (by simp)).1 _)]
    unfold letBindings
    rw [e2, andThen_ok, (gap_part reads_entry hi' hq b ind hi).2, andThen_ok]
    cases ht : tag c!"in" (q.text ++ b) with
    | ok w t =>
      obtain ⟨-, e⟩ := tag_eq_ok.1 ht
      rw [Part.text, List.append_assoc] at e
      rw [andThen_ok]
      rcases err_or_ok (fun k => cons_gap k ind .GTE) t with e' | ⟨k, u, e', -⟩
      · rw [e']; rfl
      · refine absurd ?_ (entryHead_in hq.head e)
        cases t with
        | nil => exact next_nil _
        | cons x t =>
          refine next_cons.2 fun hx => ?_
          rw [gap_none (noGap_of_ne ⟨?_, ?_, ?_⟩)] at e'
          · cases e'
          all_goals rintro rfl; revert hx; decide
    | err => rfl
    | panic => exact absurd ht (by rcases err_or_ok (fun k => cons_tag k _ _) (q.text ++ b) with e | ⟨_, _, e, -⟩ <;> rw [e] <;> simp)
    | div => exact absurd ht (by rcases err_or_ok (fun k => cons_tag k _ _) (q.text ++ b) with e | ⟨_, _, e, -⟩ <;> rw [e] <;> simp)

/-- **C80.** Conversely a branch whose pattern has no `let` and `case` starts with such a text before its body, if no comment
follows its arrow directly. -/
theorem C80_branch_head {i : Nat} {s r : Str} {p e : Expr} (h : caseBranch expression i s = .ok (p, e) r) (hp : Flat p)
    (hs : ¬ c!"->-" <:+: s) : ∃ m t d, BranchHead i m (fun e => (p, e)) t ∧ NoGap d ∧ s = t ++ d ∧ expression m d = .ok e r := by
  unfold caseBranch at h
  simp only [bind_eq_ok, pure_eq_ok] at h
  obtain ⟨p', s1, k1, j, s2, k2, _, s3, k3, m, s4, k4, e', s5, k5, h, rfl⟩ := h
  cases h
  obtain ⟨c, rfl, hc⟩ := eSound_expression k1
  obtain ⟨-, rfl⟩ := tag_eq_ok.1 k3
  obtain ⟨-, g1, rfl, hg1⟩ := gapTxt_of_ok k2 (by simp)
  obtain ⟨d, rfl, hd⟩ := eSound_expression k5
  obtain ⟨hn, g2, rfl, hg2⟩ := gapTxt_of_ok k4 (src_ne_nil hd trivial _)
  refine ⟨m, _, d ++ s5, .mk (c := c) (src_flat hc.any hp) hg1 hg2 ?_, hn, by simp, k5⟩
  rintro t rfl
  exact hs ⟨c ++ g1, t ++ (d ++ s5), by simp⟩

/-! Cases. -/

theorem Parts.ex_A : expression 2 c!"A" = .ok (.Variable [c!"A"]) [] := rfl
theorem Parts.ex_w : expression 2 c!"_" = .ok (.Variable [c!"_"]) [] := rfl
/-- A branch with a `case` in its body, and its pattern. -/
def Parts.exP : Part (Expr × Expr) :=
  ⟨fun e => (.Variable [c!"A"], e), c!"A ->\n    ", 4, c!"case m of\n      B ->\n        f\n          x\n\n      _ ->\n        2"⟩
theorem Parts.ex_p : Parts.exP.Laid BranchHead 2 where
  head := .mk (c := c!"A") (g1 := c!" ") (g2 := '\n' :: sp 4) (expression_src Parts.ex_A .var).low (gapTxt_space 2 .GTE)
    (gapTxt_line (ir := .GTE) (by decide) (by decide)) (by simp)
  right := by decide
  some := by simp [Parts.exP]
  noGap := noGap_of_ne (by decide)
  shut := Sh.ex_plain (by decide)
  ends := Of.ex_ends (v := c!"case m of\n      B ->\n        f\n          x\n\n      _ ->\n      ") rfl (by decide) (by decide)
def Parts.exE : Expr := .Case (.Variable [c!"m"]) [(.Variable [c!"B"], .Application (.Variable [c!"f"]) (.Variable [c!"x"])),
  (.Variable [c!"_"], .Integer c!"2")]
set_option maxRecDepth 20000 in
theorem Parts.ex_e : expression Parts.exP.col Parts.exP.body = .ok Parts.exE [] := by rfl
/-- A branch with a body that is refused. -/
def Parts.exQ : Part (Expr × Expr) := ⟨fun e => (.Variable [c!"_"], e), c!"_ ->\n    ", 4, c!"if a then 1"⟩
theorem Parts.ex_q : Parts.exQ.Laid BranchHead 2 where
  head := .mk (c := c!"_") (g1 := c!" ") (g2 := '\n' :: sp 4) (expression_src Parts.ex_w .var).low (gapTxt_space 2 .GTE)
    (gapTxt_line (ir := .GTE) (by decide) (by decide)) (by simp)
  right := by decide
  some := by simp [Parts.exQ]
  noGap := noGap_of_ne (by decide)
  shut := Sh.ex_plain (by decide)
  ends := Of.ex_ends (v := c!"if a the") rfl (by decide) (by decide)
theorem Parts.ex_err : expression Parts.exQ.col Parts.exQ.body = .err := by rfl
theorem Parts.ex_below : Below 2 c!"\n\nin 5" :=
  .line (ls := [⟨0, none⟩]) (last := ⟨0, none⟩) (t := c!"in 5") (by simp [Line.ok]) (by simp [Line.ok]) (by decide)
    (.inl ⟨rfl, noGap_of_ne (by decide), by decide⟩)

example := C80_branch Parts.ex_p (Parts.ex_below.mono (by decide : 2 ≤ 4))
/-- Twice the branch with a `case` inside. -/
example : expression 0 (caseText 2 c!"n" [Parts.exP.text, Parts.exP.text] ++ c!"\n\nin 5") =
    .ok (.Case (.Variable [c!"n"]) [(.Variable [c!"A"], Parts.exE), (.Variable [c!"A"], Parts.exE)]) c!"\n\nin 5" :=
  C80_case (ps := [(Parts.exP, Parts.exE), (Parts.exP, Parts.exE)]) (by decide) (by decide) (expression_src (d := c!"n") rfl .var) (by simp)
    (by simp; exact ⟨Parts.ex_p, Parts.ex_e⟩) Parts.ex_below
example : caseText 2 c!"n" [c!"A ->\n    0", c!"_ ->\n    1"] = c!"case n of\n  A ->\n    0\n  _ ->\n    1" := by rfl
/-- The branch that is refused after it, and alone. -/
example : expression 0 (caseText 2 c!"n" [Parts.exP.text] ++ onLines 2 [Parts.exQ.text] ++ c!"\n\nin 5") =
    .ok (.Case (.Variable [c!"n"]) [(.Variable [c!"A"], Parts.exE)]) (onLines 2 [Parts.exQ.text] ++ c!"\n\nin 5") :=
  C80_case_stop (ps := [(Parts.exP, Parts.exE)]) (by decide) (by decide) (expression_src (d := c!"n") rfl .var) (by simp)
    (by simp; exact ⟨Parts.ex_p, Parts.ex_e⟩) Parts.ex_q Parts.ex_err (Parts.ex_below.mono (by decide))
example : expression 0 (caseText 2 c!"n" [Parts.exQ.text] ++ c!"\n\nin 5") = .err :=
  C80_case_refused (by decide) (by decide) (expression_src (d := c!"n") rfl .var) Parts.ex_q Parts.ex_err (Parts.ex_below.mono (by decide))
example : onLines 2 [Parts.exQ.text] = c!"\n  _ ->\n    if a then 1" := by rfl
example := C80_branch_head (i := 2) (s := c!"A ->\n    let x = 1 in x\ny") (p := .Variable [c!"A"]) rfl .var (by decide)

theorem Parts.ex_a : TySrc 2 (.ann (.TypeVariable c!"a")) c!"a" := by
  obtain ⟨c, e, h⟩ := typeAnnotation_sound (ind := 2) (s := c!"a") (r := []) (t := .TypeVariable c!"a") rfl
  rw [List.append_nil] at e
  exact e ▸ h
/-- Entries: a binding with the same body, and a function with a signature. -/
def Parts.exB : Part LetEntry := ⟨fun e => .LetBinding (.Variable [c!"y"]) e, c!"y =\n    ", 4, Parts.exP.body⟩
theorem Parts.ex_b : Parts.exB.Laid EntryHead 2 where
  head := .binding (c := c!"y") (w := c!" ") (g := '\n' :: sp 4) (.tVar (.lo ex_y)) ⟨by simp, by simp⟩
    (gapTxt_line (ir := .GT) (by decide) (by decide))
  right := by decide
  some := Parts.ex_p.some
  noGap := Parts.ex_p.noGap
  shut := Parts.ex_p.shut
  ends := Parts.ex_p.ends
def Parts.exF : Part LetEntry := ⟨fun e => .LetFunction (.mk (some ⟨c!"g", .TypeVariable c!"a"⟩) (.mk c!"g" [.Variable [c!"x"]] e)),
  c!"g : a\n  g x =\n    ", 4, Parts.exP.body⟩
theorem Parts.ex_f : Parts.exF.Laid EntryHead 2 where
  head := .function (h := c!"g : a\n  g x =") (g := '\n' :: sp 4)
    (.signed (m' := c!"g") (w := c!" ") (g := c!" ") (c := c!"a") (k := 2) (h := c!"g x =") (.lo (loName_of 'g' [] rfl (by decide) (by decide) (by decide))) ⟨by simp, by simp⟩
      (gapTxt_space 2 .GT) Parts.ex_a rfl
      (.plain (m := c!"g") (cs := c!" x") (w := c!" ") (.lo (loName_of 'g' [] rfl (by decide) (by decide) (by decide)))
        (.fargs (w := c!" ") (c := c!"x") (cs := []) ⟨by simp, by simp⟩ (.var (.lo ex_x)) .fargs0) ⟨by simp, by simp⟩))
    (.inl (by simp)) (gapTxt_line (ir := .GT) (by decide) (by decide))
  right := by decide
  some := Parts.ex_p.some
  noGap := Parts.ex_p.noGap
  shut := Parts.ex_p.shut
  ends := Parts.ex_p.ends
/-- An entry with a body that is refused; its name starts with `in`. -/
def Parts.exR : Part LetEntry := ⟨fun e => .LetBinding (.Variable [c!"inner"]) e, c!"inner =\n    ", 4, c!"if a then 1"⟩
theorem Parts.ex_r : Parts.exR.Laid EntryHead 2 where
  head := .binding (c := c!"inner") (w := c!" ") (g := '\n' :: sp 4) (.tVar (.lo (loName_of 'i' c!"nner" rfl (by decide) (by decide) (by decide)))) ⟨by simp, by simp⟩
    (gapTxt_line (ir := .GT) (by decide) (by decide))
  right := by decide
  some := Parts.ex_q.some
  noGap := Parts.ex_q.noGap
  shut := Parts.ex_q.shut
  ends := Parts.ex_q.ends
example := C80_entry Parts.ex_f (Parts.ex_below.mono (by decide : 2 ≤ 4))
example : expression 0 (letText 2 0 [Parts.exB.text, Parts.exF.text] c!"y + 1\n)") =
    .ok (.Let [.LetBinding (.Variable [c!"y"]) Parts.exE,
        .LetFunction (.mk (some ⟨c!"g", .TypeVariable c!"a"⟩) (.mk c!"g" [.Variable [c!"x"]] Parts.exE))]
      (.BinOp (.Variable [c!"+"]) (.Variable [c!"y"]) (.Integer c!"1"))) c!"\n)" :=
  (C80_let (ps := [(Parts.exB, Parts.exE), (Parts.exF, Parts.exE)]) (by decide) (by decide) (by decide) (by decide)
    (noGap_of_ne (by decide)) (by simp)
    (by simp; exact ⟨⟨Parts.ex_b, by decide, Parts.ex_e⟩, Parts.ex_f, by decide, Parts.ex_e⟩) _ _).2 ⟨_, rfl, rfl⟩
example : expression 0 (c!"let" ++ onLines 2 [Parts.exB.text, Parts.exR.text] ++ c!"\n\nin 5") = .err :=
  C80_let_refused (ps := [(Parts.exB, Parts.exE)]) (by decide) (by decide) (by simp; exact ⟨Parts.ex_b, Parts.ex_e⟩)
    Parts.ex_r Parts.ex_err (Parts.ex_below.mono (by decide))

end ElmParser
