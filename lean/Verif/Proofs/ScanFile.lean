import Verif.Proofs.ScanGrammar

/-! The scanner of Spec/Scan.lean accepts every layout of a file. -/
namespace ElmParser
open Spec

variable {kw : Bool}

/-- The end of a statement. -/
def StmtEnd (kw : Bool) (p : Pos) (k : List Char) : Prop := k = [] ∧
  ((∃ w, p = .word w ∧ NoBlock kw w) ∨ p = .closed ∨ p = .quotes ∨ ∃ w, p = .op false w ∧ w ≠ c!"." ∧ w ≠ [])

theorem TokEnd.stmt {p k} (h : TokEnd kw [] p k) : StmtEnd kw p k := by
  obtain ⟨rfl, h | rfl | rfl⟩ := h
  · exact ⟨rfl, .inl h⟩
  · exact ⟨rfl, .inr (.inl rfl)⟩
  · exact ⟨rfl, .inr (.inr (.inl rfl))⟩

theorem StmtEnd.gapPos {p k} (h : StmtEnd kw p k) : GapPos kw p := by
  obtain ⟨-, ⟨w, rfl, h⟩ | rfl | rfl | ⟨w, rfl, h1, h2⟩⟩ := h
  · exact gapPos_plain h
  · exact gapPos_closed
  · exact TokEnd.gapPos (k := []) (k' := []) ⟨rfl, .inr (.inr rfl)⟩
  · exact gapPos_op h1 h2

theorem commaNames_scan {p k ns} (hp : TakesWord kw p k) (hne : ns ≠ []) (h : ∀ n ∈ ns, UpName n) :
    Go kw p k (commaNames ns) (AtWord kw k) := by
  induction ns generalizing p with
  | nil => exact absurd rfl hne
  | cons n ns ih =>
    cases ns with
    | nil => exact go_up hp (h n (by simp))
    | cons m ms =>
      show Go kw p k (n ++ c!", " ++ commaNames (m :: ms)) _
      rw [List.append_assoc]
      refine (go_up hp (h n (by simp))).append fun p' _ hq => ?_
      obtain rfl := hq.1
      exact .cons (step_comma' (.inl hq.tokEnd)) (.cons (p' := .gap) rfl (ih word_gap (by simp) fun x hx => h x (by simp [hx])))

theorem export_scan {e c p k} (hp : TyPos kw p k) (h : ExportText e c) : Go kw p k c (TokEnd kw k) := by
  cases h with
  | function h => exact go_fnName hp h
  | type_ hn h =>
    refine (go_up hp.word hn).append fun p' _ hq => ?_
    obtain rfl := hq.1
    cases h with
    | none => exact .nil hq.tokEnd
    | all =>
      obtain ⟨-, w, rfl, hw⟩ := hq
      exact .cons (p' := .paren) (k' := '(' :: _) (step_plain (c := '(') hw (by decide)) (.inr ⟨_, _, rfl, rfl, .inr (.inl rfl)⟩)
    | some hne h =>
      rw [List.append_assoc]
      obtain ⟨-, w, rfl, hw⟩ := hq
      refine .cons (p' := .paren) (k' := '(' :: _) (step_plain (c := '(') hw (by decide)) ((commaNames_scan word_paren hne h).append fun p' _ hq => ?_)
      exact go_close (.inl hq.tokEnd) rfl

theorem exportItems_scan {es c} (h : ExportItems es c) : ∀ p k, TokEnd kw k p k → Go kw p k c (TokEnd kw k) := by
  induction h with
  | nil => exact fun p k hp => .nil hp
  | cons h1 h2 he _ ih =>
    intro p k hp
    simp only [List.append_assoc]
    refine (go_whites_end hp h1.whites).append fun p' _ hq => .cons (step_comma' hq) ?_
    have := hq.elim (·.1) (·.1)
    subst this
    refine (go_whites_keep (P := TyPos kw) gapPos_gap h2.whites tyPos_gap tyPos_gap).append fun p' _ hq => ?_
    obtain ⟨rfl, hq⟩ := hq
    refine (export_scan hq he).append fun p' _ hq => ?_
    obtain rfl := hq.1
    exact ih _ _ hq

theorem exports_scan {e c p k} (hp : TakesOpen kw p k) (h : ExportsText e c) : Go kw p k c (TokEnd kw k) := by
  cases h with
  | all h1 h2 =>
    simp only [List.append_assoc]
    refine .cons (step_paren hp) ((go_optGap gapPos_paren h1).append fun p' _ hq => ?_)
    have hq : ∃ q, Go kw p' ('(' :: k) c!".." fun p k' => k' = '(' :: k ∧ p = .op q c!".." := by
      obtain ⟨rfl, ⟨-, rfl⟩ | rfl⟩ := hq
      · exact ⟨true, .inr ⟨_, _, rfl, rfl, rfl⟩⟩
      · exact ⟨false, .inr ⟨_, _, rfl, rfl, rfl⟩⟩
    rename_i k' hq'
    obtain rfl := hq'.1
    obtain ⟨q, hq⟩ := hq
    refine hq.append fun p' _ hq => ?_
    obtain ⟨rfl, rfl⟩ := hq
    rcases h2 with rfl | ⟨i, h2⟩
    · cases q <;> exact .inr ⟨_, _, rfl, rfl, .inr (.inl rfl)⟩
    · exact (go_gap (gapPos_op (by decide) (by simp)) h2).append fun _ _ hq => go_close (.inr hq) rfl
  | some h1 he hes h2 =>
    simp only [List.append_assoc]
    refine .cons (step_paren hp) ((go_optGap_keep (P := TyPos kw) gapPos_paren h1 tyPos_paren tyPos_gap).append fun p' _ hq => ?_)
    obtain ⟨rfl, hq⟩ := hq
    refine (export_scan hq he).append fun p' _ hq => ?_
    obtain rfl := hq.1
    refine (exportItems_scan hes _ _ hq).append fun p' _ hq => ?_
    obtain rfl := hq.1
    exact (go_optGap_end hq h2).append fun _ _ hq => go_close hq rfl

theorem effect_scan {f c p k} (hp : TakesWord kw p k) (hk : inBraces k = true) (h : EffectText f c) : Go kw p k c (AtWord kw k) := by
  obtain ⟨hn, h1, h2, hu⟩ := h
  simp only [List.append_assoc]
  refine (go_lo hp hn).append fun p' _ hq => ?_
  obtain rfl := hq.1
  refine (go_whites_end hq.tokEnd h1.whites).append fun p' _ hq => .cons (step_sym hk hq (by decide)) ?_
  have := hq.elim (·.1) (·.1)
  subst this
  refine (go_whites_keep (P := TakesWord kw) (gapPos_op (by decide) (by simp)) h2.whites (exprPos_eq hk).term.word word_gap).append fun p' _ hq => ?_
  obtain ⟨rfl, hq⟩ := hq
  exact go_up hq hu

theorem effectItems_scan {fs c} (h : EffectItems fs c) : ∀ p k, AtWord kw k p k → inBraces k = true → Go kw p k c (AtWord kw k) := by
  induction h with
  | nil => exact fun p k hp _ => .nil hp
  | cons h _ ih =>
    intro p k hp hk
    simp only [List.append_assoc]
    refine .cons (step_comma' (.inl hp.tokEnd)) (.cons (p' := .gap) rfl ((effect_scan word_gap hk h).append fun p' _ hq => ?_))
    obtain rfl := hq.1
    exact ih _ _ hq hk

theorem ctorItems_scan {ind us c} (h : ConstructorItems ind us c) : Fine kw (tysVars us) → ∀ p k, TokEnd kw k p k → Go kw p k c (TokEnd kw k) := by
  induction h with
  | nil => exact fun _ p k hp => .nil hp
  | cons hg hw ht _ ih =>
    intro hv p k hp
    simp only [List.append_assoc]
    refine (go_gap hp.gapPos hg).append fun _ _ hq => ?_
    obtain ⟨rfl, rfl⟩ := hq
    refine .cons (p' := .op false c!"|") rfl ((go_spaces (gapPos_op (by decide) (by simp)) hw).append fun _ _ hq => ?_)
    obtain ⟨rfl, rfl⟩ := hq
    refine (tySrc_scan ht (by fine hv) _ _ tyPos_gap).append fun p' _ hq => ?_
    obtain rfl := hq.1
    exact ih (by fine hv) _ _ hq

theorem portArgs_scan {ns c} (h : PortArgs ns c) : ∀ p k, AtWord kw k p k → Go kw p k c (AtWord kw k) := by
  induction h with
  | nil => exact fun p k hp => .nil hp
  | cons hw hn _ ih =>
    intro p k hp
    simp only [List.append_assoc]
    refine (go_spaces hp.gapPos hw).append fun _ _ hq => ?_
    obtain ⟨rfl, rfl⟩ := hq
    refine (go_lo word_gap hn).append fun p' _ hq => ?_
    obtain rfl := hq.1
    exact ih _ _ hq

/-- `A.B exposing (..)` after a gap. -/
theorem moduleTail_scan {ns g3 g4 i3 i4 e c} (hne : ns ≠ []) (hns : ∀ n ∈ ns, UpName n) (h3 : GapTxt 0 .GT i3 g3)
    (h4 : GapTxt 0 .GT i4 g4) (he : ExportsText e c) :
    Go kw .gap [] (dotted ns ++ (g3 ++ (c!"exposing" ++ (g4 ++ c)))) (TokEnd kw []) := by
  refine (go_dotted word_gap hne hns).append fun p' _ hq => ?_
  obtain rfl := hq.1
  refine (go_gap hq.gapPos h3).append fun _ _ hq => ?_
  obtain ⟨rfl, rfl⟩ := hq
  refine (go_kw word_gap (by decide) (by decide) (by decide)).append fun p' _ hq => ?_
  obtain rfl := hq.1
  refine (go_gap hq.gapPos h4).append fun _ _ hq => ?_
  obtain ⟨rfl, rfl⟩ := hq
  exact exports_scan opens_gap he

theorem block_scan {k t} (h : ∀ a b, t ≠ a ++ c!"-}" ++ b) :
    Go kw .block k (t ++ c!"-}") fun p' k' => k' = k ∧ p' = .closed := by
  -- after a dash the next character is no brace
  have : ∀ t, (∀ a b, t ≠ a ++ c!"-}" ++ b) →
      Go kw .block k (t ++ c!"-}") (fun p' k' => k' = k ∧ p' = .closed) ∧
      ((∀ u, t ≠ '}' :: u) → Go kw .blockDash k (t ++ c!"-}") (fun p' k' => k' = k ∧ p' = .closed)) := by
    intro t
    induction t with
    | nil => exact fun _ => ⟨.inr ⟨_, _, rfl, rfl, rfl⟩, fun _ => .inr ⟨_, _, rfl, rfl, rfl⟩⟩
    | cons c t ih =>
      intro h
      have ht : ∀ a b, t ≠ a ++ c!"-}" ++ b := fun a b e => h (c :: a) b (by rw [e]; rfl)
      obtain ⟨i1, i2⟩ := ih ht
      by_cases hc : c = '-'
      · subst hc
        have i3 := i2 fun u e => h [] u (by rw [e]; rfl)
        exact ⟨.cons (p' := .blockDash) rfl i3, fun _ => .cons (p' := .blockDash) rfl i3⟩
      · refine ⟨.cons (p' := .block) (k' := k) ?_ i1, fun hb => .cons (p' := .block) (k' := k) ?_ i1⟩
        · show (if c = '-' then _ else _) = _
          rw [if_neg hc]
        · show (if c = '}' then _ else if c = '-' then _ else _) = _
          rw [if_neg fun e => hb t (by rw [e]), if_neg hc]
  exact (this t h).1

theorem stmt_scan {st : Prop} {s c} (h : StmtSrc st s c) (hv : Fine kw (statementTyVars s)) : Go kw .gap [] c (StmtEnd kw) := by
  cases h with
  | portModule h1 h2 hne hns h3 h4 he =>
    simp only [List.append_assoc]
    refine (go_kw word_gap (by decide) (by decide) (by decide)).append fun p' _ hq => ?_
    obtain rfl := hq.1
    refine (go_gap hq.gapPos h1).append fun _ _ hq => ?_
    obtain ⟨rfl, rfl⟩ := hq
    refine (go_kw word_gap (by decide) (by decide) (by decide)).append fun p' _ hq => ?_
    obtain rfl := hq.1
    refine (go_gap hq.gapPos h2).append fun _ _ hq => ?_
    obtain ⟨rfl, rfl⟩ := hq
    exact (moduleTail_scan hne hns h3 h4 he).mono fun _ _ h => h.stmt
  | effectModule h1 h2 hne hns h3 h4 hf h5 h6 he =>
    simp only [List.append_assoc]
    refine (go_kw word_gap (by decide) (by decide) (by decide)).append fun p' _ hq => ?_
    obtain rfl := hq.1
    refine (go_gap hq.gapPos h1).append fun _ _ hq => ?_
    obtain ⟨rfl, rfl⟩ := hq
    refine (go_kw word_gap (by decide) (by decide) (by decide)).append fun p' _ hq => ?_
    obtain rfl := hq.1
    refine (go_gap hq.gapPos h2).append fun _ _ hq => ?_
    obtain ⟨rfl, rfl⟩ := hq
    refine (go_dotted word_gap hne hns).append fun p' _ hq => ?_
    obtain rfl := hq.1
    refine (go_gap hq.gapPos h3).append fun _ _ hq => ?_
    obtain ⟨rfl, rfl⟩ := hq
    refine (go_kw word_gap (by decide) (by decide) (by decide)).append fun p' _ hq => ?_
    obtain rfl := hq.1
    refine (go_gap hq.gapPos h4).append fun _ _ hq => ?_
    obtain ⟨rfl, rfl⟩ := hq
    refine .cons (p' := .brace) (k' := ['{']) rfl ?_
    rw [show ∀ x : Str, List.append [] x = x from fun _ => rfl]
    refine .append (Q := fun p k => k = ['{'] ∧ (p = .brace ∨ ∃ w, p = .word w ∧ NoBlock kw w)) ?_ fun p _ hq => ?_
    · cases hf with
      | nil => exact .nil ⟨rfl, .inl rfl⟩
      | cons hf hfs =>
        refine (effect_scan word_brace rfl hf).append fun p' _ hq => ?_
        obtain rfl := hq.1
        exact (effectItems_scan hfs _ _ hq rfl).mono fun _ _ h => ⟨h.1, .inr h.2⟩
    · have : stepAt kw p ['{'] '}' = some (.at .closed []) := by
        obtain ⟨-, rfl | ⟨w, rfl, hw⟩⟩ := hq
        · rfl
        · rw [step_plain hw (by decide)]; rfl
      obtain rfl := hq.1
      refine .cons this ((go_gap (TokEnd.gapPos (k := []) (k' := []) ⟨rfl, .inr (.inl rfl)⟩) h5).append fun _ _ hq => ?_)
      obtain ⟨rfl, rfl⟩ := hq
      refine (go_kw word_gap (by decide) (by decide) (by decide)).append fun p' _ hq => ?_
      obtain rfl := hq.1
      refine (go_gap hq.gapPos h6).append fun _ _ hq => ?_
      obtain ⟨rfl, rfl⟩ := hq
      exact (exports_scan opens_gap he).mono fun _ _ h => h.stmt
  | module_ h2 hne hns h3 h4 he =>
    simp only [List.append_assoc]
    refine (go_kw word_gap (by decide) (by decide) (by decide)).append fun p' _ hq => ?_
    obtain rfl := hq.1
    refine (go_gap hq.gapPos h2).append fun _ _ hq => ?_
    obtain ⟨rfl, rfl⟩ := hq
    exact (moduleTail_scan hne hns h3 h4 he).mono fun _ _ h => h.stmt
  | import_ hw hne hns ha he =>
    simp only [List.append_assoc]
    refine (go_kw word_gap (by decide) (by decide) (by decide)).append fun p' _ hq => ?_
    obtain rfl := hq.1
    refine (go_spaces hq.gapPos hw).append fun _ _ hq => ?_
    obtain ⟨rfl, rfl⟩ := hq
    refine (go_dotted word_gap hne hns).append fun p' _ hq => ?_
    obtain rfl := hq.1
    refine .append (Q := AtWord kw []) ?_ fun p _ hq => ?_
    · cases ha with
      | none => exact .nil hq
      | some h1 h2 hn =>
        simp only [List.append_assoc]
        refine (go_spaces hq.gapPos h1).append fun _ _ hq => ?_
        obtain ⟨rfl, rfl⟩ := hq
        refine (go_kw word_gap (by decide) (by decide) (by decide)).append fun p' _ hq => ?_
        obtain rfl := hq.1
        refine (go_spaces hq.gapPos h2).append fun _ _ hq => ?_
        obtain ⟨rfl, rfl⟩ := hq
        exact go_up word_gap hn
    · obtain rfl := hq.1
      cases he with
      | none => exact .nil hq.tokEnd.stmt
      | some h1 h2 he =>
        simp only [List.append_assoc]
        refine (go_spaces hq.gapPos h1).append fun _ _ hq => ?_
        obtain ⟨rfl, rfl⟩ := hq
        refine (go_kw word_gap (by decide) (by decide) (by decide)).append fun p' _ hq => ?_
        obtain rfl := hq.1
        refine (go_spaces hq.gapPos h2).append fun _ _ hq => ?_
        obtain ⟨rfl, rfl⟩ := hq
        exact (exports_scan opens_gap he).mono fun _ _ h => h.stmt
  | typeAlias h1 h2 ht h3 hg hu =>
    simp only [List.append_assoc]
    refine (go_kw word_gap (by decide) (by decide) (by decide)).append fun p' _ hq => ?_
    obtain rfl := hq.1
    refine (go_spaces hq.gapPos h1).append fun _ _ hq => ?_
    obtain ⟨rfl, rfl⟩ := hq
    refine (go_kw word_gap (by decide) (by decide) (by decide)).append fun p' _ hq => ?_
    obtain rfl := hq.1
    refine (go_spaces hq.gapPos h2).append fun _ _ hq => ?_
    obtain ⟨rfl, rfl⟩ := hq
    refine (tySrc_scan ht (by fine hv) _ _ tyPos_gap).append fun p' _ hq => ?_
    obtain rfl := hq.1
    refine (go_spaces hq.gapPos h3).append fun _ _ hq => ?_
    obtain ⟨rfl, rfl⟩ := hq
    refine .cons (p' := .op false c!"=") rfl ((go_gap (gapPos_op (by decide) (by simp)) hg).append fun _ _ hq => ?_)
    obtain ⟨rfl, rfl⟩ := hq
    exact (tySrc_scan hu (by fine hv) _ _ tyPos_gap).mono fun _ _ h => h.stmt
  | type_ hw ht h1 h2 hd hds =>
    simp only [List.append_assoc]
    refine (go_kw word_gap (by decide) (by decide) (by decide)).append fun p' _ hq => ?_
    obtain rfl := hq.1
    refine (go_spaces hq.gapPos hw).append fun _ _ hq => ?_
    obtain ⟨rfl, rfl⟩ := hq
    refine (tySrc_scan ht (by fine hv) _ _ tyPos_gap).append fun p' _ hq => ?_
    obtain rfl := hq.1
    refine (go_gap hq.gapPos h1).append fun _ _ hq => ?_
    obtain ⟨rfl, rfl⟩ := hq
    refine .cons (p' := .op false c!"=") rfl ((go_gap (gapPos_op (by decide) (by simp)) h2).append fun _ _ hq => ?_)
    obtain ⟨rfl, rfl⟩ := hq
    refine (tySrc_scan hd (by fine hv) _ _ tyPos_gap).append fun p' _ hq => ?_
    obtain rfl := hq.1
    exact (ctorItems_scan hds (by fine hv) _ _ hq).mono fun _ _ h => h.stmt
  | portType h1 hn h2 hg ht =>
    simp only [List.append_assoc]
    refine (go_kw word_gap (by decide) (by decide) (by decide)).append fun p' _ hq => ?_
    obtain rfl := hq.1
    refine (go_spaces hq.gapPos h1).append fun _ _ hq => ?_
    obtain ⟨rfl, rfl⟩ := hq
    refine (go_lo word_gap hn).append fun p' _ hq => ?_
    obtain rfl := hq.1
    refine (go_spaces hq.gapPos h2).append fun _ _ hq => ?_
    obtain ⟨rfl, rfl⟩ := hq
    refine .cons (p' := .op false c!":") rfl ((go_gap (gapPos_op (by decide) (by simp)) hg).append fun _ _ hq => ?_)
    obtain ⟨rfl, rfl⟩ := hq
    exact (tySrc_scan ht (by fine hv) _ _ tyPos_gap).mono fun _ _ h => h.stmt
  | port h1 hn has h2 hg he =>
    simp only [List.append_assoc]
    refine (go_kw word_gap (by decide) (by decide) (by decide)).append fun p' _ hq => ?_
    obtain rfl := hq.1
    refine (go_spaces hq.gapPos h1).append fun _ _ hq => ?_
    obtain ⟨rfl, rfl⟩ := hq
    refine (go_lo word_gap hn).append fun p' _ hq => ?_
    obtain rfl := hq.1
    refine (portArgs_scan has _ _ hq).append fun p' _ hq => ?_
    obtain rfl := hq.1
    refine (go_spaces hq.gapPos h2).append fun _ _ hq => ?_
    obtain ⟨rfl, rfl⟩ := hq
    refine .cons (p' := .op false c!"=") rfl ((go_gap (gapPos_op (by decide) (by simp)) hg).append fun _ _ hq => ?_)
    obtain ⟨rfl, rfl⟩ := hq
    exact (src_scan he hv _ _ exprPos_gap).mono fun _ _ h => h.stmt
  | function h => exact (src_scan h hv _).mono fun _ _ h => h.stmt
  | @infix_ a n w1 d w2 h1 hd _ h2 hn =>
    simp only [List.append_assoc]
    refine (go_kw word_gap (by cases a <;> decide) (by cases a <;> decide) (by cases a <;> decide)).append fun p' _ hq => ?_
    obtain rfl := hq.1
    refine (go_spaces hq.gapPos h1).append fun _ _ hq => ?_
    obtain ⟨rfl, rfl⟩ := hq
    refine (go_plain word_gap hd.idents.1 hd.idents.2 hd.plain).append fun p' _ hq => ?_
    obtain rfl := hq.1
    refine (go_spaces hq.gapPos h2).append fun _ _ hq => ?_
    obtain ⟨rfl, rfl⟩ := hq
    rcases hn with hn | hn
    · exact (go_lo word_gap hn).mono fun _ _ h => h.tokEnd.stmt
    · refine (go_operator hn).mono fun _ _ h => ⟨h.1, .inr (.inr (.inr ⟨n, h.2, fun e => hn.2.2 (by rw [e]; decide), hn.1⟩))⟩
  | @block t h =>
    rw [List.append_assoc]
    refine .cons (p' := .brace) (k' := ['{']) rfl (.cons (p' := .braceDash) (k' := ['{']) rfl ?_)
    have hf : ∀ {c u}, c ≠ '-' → Go kw .block [] (c :: u) (fun p' k' => k' = [] ∧ p' = .closed) → Go kw .braceDash ['{'] (c :: u) (StmtEnd kw) := by
      intro c u hc hg
      refine .cons (p' := .block) (k' := []) ?_ ?_
      · show (if c = '-' then _ else _) = _
        rw [if_neg hc]
        rfl
      · unfold Go scanFrom stepAt at hg
        simp only [if_neg hc] at hg
        exact hg.imp id fun ⟨p', k', h, e1, e2⟩ => ⟨p', k', h, e1, .inr (.inl e2)⟩
    cases t with
    | nil => exact .inl rfl
    | cons c t =>
      by_cases hc : c = '-'
      · subst hc; exact .stop rfl
      · exact hf hc (block_scan h)

/-- Where a file may end. -/
def FileEnd (kw : Bool) (p : Pos) (k : List Char) : Prop := Scan.final kw (.at p k) = true

theorem StmtEnd.final {p k} (h : StmtEnd kw p k) : FileEnd kw p k := by
  obtain ⟨rfl, ⟨w, rfl, h⟩ | rfl | rfl | ⟨w, rfl, -, -⟩⟩ := h
  · show (endWord kw w [] == some []) = true
    rw [h]; rfl
  all_goals rfl

theorem stmts_scan {st : Prop} {b sts c} (h : Stmts st b sts c) (hv : ∀ x ∈ sts, Fine kw (statementTyVars x)) :
    if b then Go kw .gap [] c (FileEnd kw) else (∀ p, StmtEnd kw p [] → Go kw p [] c (FileEnd kw)) ∧
      (Next (· = '\n') c → Go kw .dashes [] c (FileEnd kw) ∧ Go kw .line [] c (FileEnd kw)) := by
  induction h with
  | @last w h =>
    refine ⟨fun p hp => (go_whites hp.gapPos h).mono fun p' _ hq => ?_, fun hn => ?_⟩
    · obtain ⟨rfl, ⟨-, rfl⟩ | ⟨-, rfl⟩⟩ := hq
      · exact hp.final
      · rfl
    · cases w with
      | nil => exact ⟨.nil rfl, .nil rfl⟩
      | cons c w =>
        have hc : c = '\n' := hn c w rfl
        subst hc
        have : Go kw .gap [] w (FileEnd kw) := (go_whites gapPos_gap fun x hx => h x (by simp [hx])).mono fun p' _ hq => by
          obtain ⟨rfl, ⟨-, rfl⟩ | ⟨-, rfl⟩⟩ := hq <;> rfl
        exact ⟨.cons (p' := .gap) rfl this, .cons (p' := .gap) rfl this⟩
  | @sep w sts c h hne _ _ ih =>
    have ih : Go kw .gap [] c (FileEnd kw) := ih hv
    have hgo : ∀ p, GapPos kw p → Go kw p [] (w ++ c) (FileEnd kw) := fun p hp => (go_whites1 hp h hne).append fun _ _ hq => by
      obtain ⟨rfl, rfl⟩ := hq
      exact ih
    refine ⟨fun p hp => hgo p hp.gapPos, fun hn => ?_⟩
    cases w with
    | nil => exact absurd rfl hne
    | cons x w =>
      have hx : x = '\n' := hn x (w ++ c) rfl
      subst hx
      have : Go kw .gap [] (w ++ c) (FileEnd kw) := (go_whites gapPos_gap fun x hx => h x (by simp [hx])).append fun p' _ hq => by
        obtain ⟨rfl, ⟨-, rfl⟩ | ⟨-, rfl⟩⟩ := hq <;> exact ih
      exact ⟨.cons (p' := .gap) rfl this, .cons (p' := .gap) rfl this⟩
  | line ht hr _ ih =>
    obtain ⟨i1, i2⟩ := (ih fun x hx => hv x (by simp [hx])).2 hr
    show Go kw .gap [] _ (FileEnd kw)
    rw [List.append_assoc]
    refine .cons (p' := .op false c!"-") rfl (.cons (p' := .dashes) rfl ((go_comment ht).append fun p' _ hq => ?_))
    obtain ⟨rfl, rfl | rfl⟩ := hq
    · exact i1
    · exact i2
  | stmt h _ ih =>
    refine (stmt_scan h (hv _ (by simp))).append fun p' _ hq => ?_
    obtain rfl := hq.1
    exact (ih fun x hx => hv x (by simp [hx])).1 p' hq

theorem fileSrc_scan {st : Prop} {sts c} (h : FileSrc st sts c) (hv : ∀ x ∈ sts, Fine kw (statementTyVars x)) :
    scansWith kw c = true := by
  obtain ⟨w, d, rfl, hw, hd⟩ := h
  have : Go kw .gap [] (w ++ d) (FileEnd kw) := (go_whites gapPos_gap hw).append fun p' _ hq => by
    obtain ⟨rfl, ⟨-, rfl⟩ | ⟨-, rfl⟩⟩ := hq <;> exact stmts_scan hd hv
  unfold scansWith
  rcases this with h | ⟨p, k, h, hf⟩
  · rw [h]; rfl
  · rw [h]; exact hf

end ElmParser
