import Verif.Spec.Parts
import Verif.Proofs.Header
import Verif.Props.Offside
import Verif.Props.Rearrange

/-! Blocks whose entries and branches have their bodies on new lines. -/
namespace ElmParser
open Spec

variable {s r : Str}

/-! ### One part -/

theorem branchHead_apply {i m : Nat} {mk : Expr → Expr × Expr} {h : Str} (hh : BranchHead i m mk h) (hs : NoGap s) :
    caseBranch expression i (h ++ s) = (expression m s).andThen fun e r => .ok (mk e) r := by
  cases hh with
  | @mk p c g1 k g2 h1 h2 h3 h4 =>
    unfold caseBranch
    simp only [List.append_assoc]
    rw [bind_apply, src_complete h1 (Nat.zero_le _) _ (stop_arrow h2 (gap_notOp h3 h4)), andThen_ok, bind_apply,
      h2.gap noGap_arrow, andThen_ok, bind_apply, tag_append, andThen_ok, bind_apply, h3.gap hs, andThen_ok, bind_apply]
    cases expression m s <;> rfl

theorem gapTxt_gte {i m : Nat} {g : Str} (h : GapTxt i .GT m g) : GapTxt i .GTE m g := by
  obtain ⟨ls, n, h1, h2, h3, h4⟩ := h
  exact ⟨ls, n, h1, h2, h3, h4.imp id fun ⟨h1, h2, h3⟩ => ⟨h1, h2, Nat.le_of_lt h3⟩⟩

/-- A binding whose body is refused is not a function either. -/
theorem functionF_binding {i m : Nat} {t : Expr} {c w g : Str} (hc : SrcAt True i 0 (.target t) c) (hw : SpacesTxt w)
    (hg : GapTxt i .GT m g) (hs : NoGap s) (he : expression m s = .err) :
    functionF expression i (c ++ (w ++ '=' :: (g ++ s))) = .err := by
  have h1 := src_complete hc _ (termStop_spaces (r := '=' :: (g ++ s)) hw)
  generalize hu : c ++ (w ++ '=' :: (g ++ s)) = u at h1
  cases hn : functionNameOrOp u with
  | err =>
    unfold functionF functionDefinitionF functionSignature
    simp only [bind_apply, opt_apply, terminated_apply, hn, andThen_err, orElse_err, andThen_ok]
  | ok n v =>
    have e := variableP_of_functionName hn
    unfold letBindingTarget at h1
    rw [alt_apply, e, orElse_ok] at h1
    cases h1
    have hsp := spaces_ok (r := '=' :: (g ++ s)) hw (next_cons.2 (by decide))
    unfold functionF functionDefinitionF functionSignature
    have hcol : char ':' ('=' :: (g ++ s)) = .err := char_cons_ne _ (by decide)
    have hargs : many0 (preceded spaces (termF expression i)) (w ++ '=' :: (g ++ s)) = .ok [] (w ++ '=' :: (g ++ s)) :=
      many0_ok_of_run (.nil _) (fargs_end hw (by decide) (by decide))
    simp only [bind_apply, opt_apply, terminated_apply, hn, andThen_ok, hsp, hcol, andThen_err, orElse_err, hargs]
    simp only [bind_apply, andThen_ok, char_cons, hg.gap hs, he, andThen_err]
  | panic => exact absurd hn (by rcases err_or_ok cons_functionNameOrOp u with e | ⟨_, _, e, -⟩ <;> rw [e] <;> simp)
  | div => exact absurd hn (by rcases err_or_ok cons_functionNameOrOp u with e | ⟨_, _, e, -⟩ <;> rw [e] <;> simp)

theorem header_notBinding {i : Nat} {sg : Option FunctionSignature} {n : Name} {as : List Expr} {h : Str} (hh : HeaderAt i sg n as h)
    (h' : sg ≠ none ∨ as ≠ []) : letBinding expression i (h ++ s) = .err := by
  cases hh with
  | @plain _ _ m cs w hn ha hw =>
    cases ha with
    | fargs0 => simp at h'
    | @fargs _ _ a as' w' c' cs' hw' hc hcs =>
      have hng := (src_starts hc trivial).noGap (r := cs' ++ (w ++ '=' :: s))
      obtain ⟨x, u, rfl, hx⟩ := term_head hc _ (.inl rfl)
      simp only [List.append_assoc, List.cons_append, List.nil_append] at hng ⊢
      refine letBinding_err_name hn hw' ?_ hng
      rintro rfl
      revert hx; decide
  | signed hn hw =>
    simp only [List.append_assoc, List.cons_append, List.nil_append]
    exact letBinding_err_name hn hw (by decide) (noGap_of_ne (by decide))

theorem entryHead_apply {i m : Nat} {mk : Expr → LetEntry} {h : Str} (hh : EntryHead i m mk h) (hs : NoGap s) :
    letEntry expression i (h ++ s) = (expression m s).andThen fun e r => .ok (mk e) r := by
  unfold letEntry
  cases hh with
  | @binding t c w g hc hw hg =>
    have e1 : letBinding expression i (c ++ (w ++ '=' :: (g ++ s))) =
        (expression m s).andThen fun e r => .ok (.LetBinding t e) r := by
      unfold letBinding
      rw [bind_apply, src_complete hc _ (termStop_spaces hw), andThen_ok, bind_apply,
        (gapTxt_spaces i .GTE hw).gap (noGap_of_ne (by decide)), andThen_ok, bind_apply, char_cons, andThen_ok, bind_apply,
        (gapTxt_gte hg).gap hs, andThen_ok, bind_apply]
      cases expression m s <;> rfl
    simp only [List.append_assoc, List.cons_append, List.nil_append]
    rw [alt_apply, e1]
    cases he : expression m s with
    | err => rw [andThen_err, orElse_err, pmap_apply, functionF_binding hc hw hg hs he]; rfl
    | _ => rfl
  | @function sg n as h g hh h' hg =>
    rw [List.append_assoc, alt_apply, header_notBinding hh h', orElse_err, pmap_apply]
    have := header_function hh hg hs
    change functionF expression i _ = _ at this
    rw [this]
    cases expression m s <;> rfl

/-! ### What follows a part -/

theorem expression_arrowTxt {ind : Nat} {t : Str} : expression ind ('-' :: '>' :: t) = .err := by
  have h1 : termF expression ind ('-' :: '>' :: t) = .err := termF_sign_err (.inr rfl) (next_cons.2 (by decide))
  rw [expression_unfold]
  unfold expressionF
  simp only [alt_apply, binary_err h1, orElse_err]
  rw [letExpression_err (tag_cons_ne (by decide)), caseExpression_err (tag_cons_ne (by decide)),
    ifExpression_err (tag_cons_ne (by decide)), lambda_err (char_cons_ne _ (by decide))]
  simp only [orElse_err]

/-- A line end, spaces, and something that is neither a gap nor an arrow. -/
theorem below_line {i m : Nat} {t : Str} (hi : i < m) (h1 : NoGap t) (h2 : ¬ c!"->" <+: t) : Below m ('\n' :: (sp i ++ t)) := by
  have := Below.line (n := m) (ls := []) (last := ⟨i, none⟩) (t := t) (by simp) (fun _ h => (nomatch h)) hi (.inl ⟨rfl, h1, h2⟩)
  simpa [gapText, Line.text, commentText] using this

structure HeadFine (h : Str) : Prop where
  noGap : ∀ t, NoGap (h ++ t)
  arrow : ∀ t, ¬ c!"->" <+: h ++ t

theorem branchHead_fine {i m : Nat} {mk : Expr → Expr × Expr} {h : Str} (hh : BranchHead i m mk h) : HeadFine h := by
  cases hh with
  | @mk p c g1 k g2 h1 h2 h3 h4 =>
    constructor
    · intro t
      simp only [List.append_assoc]
      exact (src_starts h1 trivial).noGap
    · rintro t ⟨u, e⟩
      have := src_complete h1 (Nat.zero_le _) _ (stop_arrow (t := g2 ++ t) h2 (gap_notOp h3 h4))
      simp only [List.append_assoc] at e
      rw [← e] at this
      simp only [List.cons_append, List.nil_append, expression_arrowTxt] at this
      cases this

theorem entryHead_fine {i m : Nat} {mk : Expr → LetEntry} {h : Str} (hh : EntryHead i m mk h) : HeadFine h := by
  cases hh with
  | @binding t c w g hc hw hg =>
    constructor
    · intro t
      simp only [List.append_assoc]
      exact (src_starts hc trivial).noGap
    · rintro t ⟨u, e⟩
      have := src_complete hc _ (termStop_spaces (r := '=' :: (g ++ t)) hw)
      simp only [List.append_assoc, List.cons_append, List.nil_append] at e
      rw [← e] at this
      unfold letBindingTarget at this
      simp only [alt_apply, variableP_err (c := '-') (t := '>' :: u) (by decide) (by decide) (by decide),
        tuple_err (c := '-') (t := '>' :: u) (by decide), simplifiedRecord_err (c := '-') (t := '>' :: u) (by decide), orElse_err,
        list_err (c := '-') (t := '>' :: u) (by decide)] at this
      cases this
  | @function sg n as h g hh h' hg =>
    constructor
    · intro t
      rw [List.append_assoc]
      exact (header_head hh _).noGap
    · rintro t ⟨u, e⟩
      rw [List.append_assoc] at e
      obtain ⟨x, v, e', hx⟩ := (header_head hh (g ++ t)).head
      rw [e'] at e
      cases e
      revert hx; decide

/-! ### Blocks -/

section
variable {α : Type} {H : Nat → Nat → (Expr → α) → Str → Prop} {P : Nat → Parser α}

/-- What is used of the two kinds of parts. -/
structure PartReads (H : Nat → Nat → (Expr → α) → Str → Prop) (P : Nat → Parser α) : Prop where
  apply : ∀ {i m mk h s}, H i m mk h → NoGap s → P i (h ++ s) = (expression m s).andThen fun e r => .ok (mk e) r
  fine : ∀ {i m mk h}, H i m mk h → HeadFine h
  cons : ∀ i k, Cons k (P i)

theorem reads_branch : PartReads BranchHead (caseBranch expression) :=
  ⟨fun hh hs => branchHead_apply hh hs, fun hh => branchHead_fine hh, fun i k => cons_caseBranchE k i⟩
theorem reads_entry : PartReads EntryHead (letEntry expression) :=
  ⟨fun hh hs => entryHead_apply hh hs, fun hh => entryHead_fine hh, fun i k => cons_letEntryE k i⟩

theorem noGap_below {d b : Str} {m : Nat} (hd : d ≠ []) (h : NoGap d) (hb : Below m b) : NoGap (d ++ b) := by
  cases d with
  | nil => exact absurd rfl hd
  | cons x d =>
    refine ⟨next_cons.2 (next_cons.1 h.1), ?_⟩
    rintro u e
    cases d with
    | nil =>
      cases hb with
      | nil => exact h.2 _ e
      | line => simp at e
    | cons y d =>
      simp only [List.cons_append, List.cons.injEq] at e
      obtain ⟨rfl, rfl, -⟩ := e
      exact h.2 d rfl

theorem part_iff (R : PartReads H P) {i : Nat} {p : Part α} {b : Str} (hp : p.Laid H i) (hb : Below p.col b) (x : α) (r : Str) :
    P i (p.text ++ b) = .ok x r ↔ ∃ e w, expression p.col p.body = .ok e w ∧ x = p.make e ∧ r = w ++ b := by
  rw [Part.text, List.append_assoc, R.apply hp.head (noGap_below hp.some hp.noGap hb)]
  have key := C76_expression hp.shut hp.ends hb
  cases he : expression p.col (p.body ++ b) with
  | ok e r' =>
    obtain ⟨w, hw, rfl⟩ := (key e r').1 he
    simp only [andThen_ok, Res.ok.injEq]
    constructor
    · rintro ⟨rfl, rfl⟩; exact ⟨e, w, hw, rfl, rfl⟩
    · rintro ⟨e', w', h1, rfl, rfl⟩
      rw [hw] at h1
      cases h1
      exact ⟨rfl, rfl⟩
  | _ =>
    refine ⟨nofun, ?_⟩
    rintro ⟨e, w, h1, -, -⟩
    have := (key e _).2 ⟨w, h1, rfl⟩
    rw [he] at this
    cases this

theorem part_ok (R : PartReads H P) {i : Nat} {p : Part α} {b : Str} {e : Expr} (hp : p.Laid H i) (hb : Below p.col b)
    (he : expression p.col p.body = .ok e []) : P i (p.text ++ b) = .ok (p.make e) b :=
  (part_iff R hp hb _ _).2 ⟨e, [], he, rfl, rfl⟩

theorem part_err (R : PartReads H P) {i : Nat} {p : Part α} {b : Str} (hp : p.Laid H i) (hb : Below p.col b)
    (he : expression p.col p.body = .err) : P i (p.text ++ b) = .err := by
  refine err_of (R.cons i) fun v u k => ?_
  obtain ⟨e, w, h1, -⟩ := (part_iff R hp hb v u).1 k
  rw [he] at h1
  cases h1

theorem part_noGap (R : PartReads H P) {i : Nat} {p : Part α} (hp : p.Laid H i) (b : Str) : NoGap (p.text ++ b) := by
  rw [Part.text, List.append_assoc]
  exact (R.fine hp.head).noGap _

theorem part_below (R : PartReads H P) {i m : Nat} {p : Part α} (hp : p.Laid H i) (hm : i < m) (b : Str) :
    Below m ('\n' :: (sp i ++ (p.text ++ b))) := by
  refine below_line hm (part_noGap R hp b) ?_
  rw [Part.text, List.append_assoc]
  exact (R.fine hp.head).arrow _

theorem gap_part (R : PartReads H P) {i : Nat} (hi : i < 4294967296) {p : Part α} (hp : p.Laid H i) (b : Str) (ind : Nat) (h : ind ≤ i) :
    gap i .EQ ('\n' :: (sp i ++ (p.text ++ b))) = .ok i (p.text ++ b) ∧
      gap ind .GTE ('\n' :: (sp i ++ (p.text ++ b))) = .ok i (p.text ++ b) :=
  ⟨(gapTxt_line (ir := .EQ) rfl hi).gap (part_noGap R hp b), (gapTxt_line (ir := .GTE) h hi).gap (part_noGap R hp b)⟩

/-- The texts of the parts. -/
abbrev texts (ps : List (Part α × Expr)) : List Str := ps.map (·.1.text)
/-- What the parts are with their bodies. -/
abbrev vals (ps : List (Part α × Expr)) : List α := ps.map fun p => p.1.make p.2

/-- The parts are in the usual layout, and their bodies are read as a whole. -/
def WholeParts (H : Nat → Nat → (Expr → α) → Str → Prop) (i : Nat) (ps : List (Part α × Expr)) : Prop :=
  ∀ p ∈ ps, p.1.Laid H i ∧ expression p.1.col p.1.body = .ok p.2 []

theorem parts_below (R : PartReads H P) {i m : Nat} {ps : List (Part α × Expr)} (hp : WholeParts H i ps) (hm : i < m) (hr : Below m r) :
    Below m (onLines i (texts ps) ++ r) := by
  cases ps with
  | nil => exact hr
  | cons p ps =>
    have := part_below R (hp p (by simp)).1 hm (onLines i (texts ps) ++ r)
    simpa [texts, onLines] using this

theorem parts_run (R : PartReads H P) {i : Nat} (hi : i < 4294967296) {ps : List (Part α × Expr)} (hp : WholeParts H i ps)
    (hr : ∀ p ∈ ps, Below p.1.col r) :
    Run (preceded (gap i .EQ) (P i)) (onLines i (texts ps) ++ r) (vals ps) r := by
  induction ps with
  | nil => exact .nil _
  | cons p ps ih =>
    have hps : WholeParts H i ps := fun q hq => hp q (List.mem_cons_of_mem _ hq)
    obtain ⟨h1, h2⟩ := hp p (by simp)
    have ih := ih hps fun q hq => hr q (List.mem_cons_of_mem _ hq)
    refine run_cons (cons_preceded' (fun k => cons_gap k i .EQ) (R.cons i)) (r := onLines i (texts ps) ++ r) ?_ ih
    have e : onLines i (texts (p :: ps)) ++ r = '\n' :: (sp i ++ (p.1.text ++ (onLines i (texts ps) ++ r))) := by
      simp [texts, onLines]
    rw [e, preceded_apply, (gap_part R hi h1 _ i (Nat.le_refl _)).1, andThen_ok,
      part_ok R h1 (parts_below R hps h1.right (hr p (by simp))) h2]

/-- The parts of a block up to where the next is not one. -/
theorem parts_list (R : PartReads H P) {i : Nat} (hi : i < 4294967296) {p : Part α × Expr} {ps : List (Part α × Expr)} (hp : WholeParts H i (p :: ps))
    (hr : ∀ q ∈ p :: ps, Below q.1.col r) (he : preceded (gap i .EQ) (P i) r = .err) :
    sepNonemptyList (gap i .EQ) (P i) (p.1.text ++ (onLines i (texts ps) ++ r)) = .ok (vals (p :: ps)) r := by
  obtain ⟨h1, h2⟩ := hp p (by simp)
  have hps : WholeParts H i ps := fun q hq => hp q (List.mem_cons_of_mem _ hq)
  exact (sepNonemptyList_iff (fun k => cons_gap k i .EQ) (R.cons i)).2
    ⟨p.1.make p.2, vals ps, onLines i (texts ps) ++ r, rfl, part_ok R h1 (parts_below R hps h1.right (hr p (by simp))) h2,
      parts_run R hi hps fun q hq => hr q (List.mem_cons_of_mem _ hq), he⟩

end

end ElmParser
