import Verif.Proofs.Scan
import Verif.Spec.TypeVars

/-! The scanner of Spec/Scan.lean accepts every layout of the grammar. -/
namespace ElmParser
open Spec

variable {kw : Bool}

/-- A token, or the gap after it. -/
def TokenOrGap (kw : Bool) (k : List Char) (p : Pos) (k' : List Char) : Prop := TokEnd kw k p k' ∨ InGap k p k'

theorem step_close {p k k' c o} (h : TokenOrGap kw (o :: k) p k') (hc : opener c = some o) :
    stepAt kw p k' c = some (.at .closed k) := by
  have hcs : c = ')' ∨ c = ']' ∨ c = '}' := by
    unfold opener at hc
    by_cases h1 : c = ')'
    · exact .inl h1
    by_cases h2 : c = ']'
    · exact .inr (.inl h2)
    by_cases h3 : c = '}'
    · exact .inr (.inr h3)
    rw [if_neg h1, if_neg h2, if_neg h3] at hc
    cases hc
  rcases h with ⟨rfl, ⟨w, rfl, h⟩ | rfl | rfl⟩ | ⟨rfl, rfl⟩
  · rw [step_plain h (by rcases hcs with rfl | rfl | rfl <;> decide)]
    rcases hcs with rfl | rfl | rfl <;> cases hc <;> rfl
  all_goals rcases hcs with rfl | rfl | rfl <;> cases hc <;> rfl

theorem go_close {p k k' c o} (h : TokenOrGap kw (o :: k) p k') (hc : opener c = some o) : Go kw p k' [c] (TokEnd kw k) :=
  .cons (step_close h hc) (.nil ⟨rfl, .inr (.inl rfl)⟩)

theorem step_comma' {p k k'} (h : TokenOrGap kw k p k') : stepAt kw p k' ',' = some (.at .gap k') := by
  rcases h with ⟨rfl, ⟨w, rfl, h⟩ | rfl | rfl⟩ | ⟨rfl, rfl⟩
  · rw [step_plain h (by decide)]; rfl
  all_goals rfl

theorem step_sym {p k k' c} (hk : inBraces k = true) (h : TokenOrGap kw k p k') (hc : c ∈ ['=', ':', '|']) :
    stepAt kw p k' c = some (.at (.op false [c]) k') := by
  simp only [List.mem_cons, List.not_mem_nil, or_false] at hc
  have hk : ∃ l, k = '{' :: l := by
    cases k with
    | nil => cases hk
    | cons x l =>
      by_cases e : x = '{'
      · exact ⟨l, by rw [e]⟩
      · unfold inBraces at hk
        split at hk
        · rename_i e'
          exact absurd (List.cons.inj e').1 e
        · cases hk
  obtain ⟨l, rfl⟩ := hk
  rcases h with ⟨rfl, ⟨w, rfl, h⟩ | rfl | rfl⟩ | ⟨rfl, rfl⟩
  · rw [step_plain h (by rcases hc with rfl | rfl | rfl <;> decide)]
    rcases hc with rfl | rfl | rfl <;> rfl
  all_goals rcases hc with rfl | rfl | rfl <;> rfl

theorem go_optGap_end {p k k' ind ir g} (hp : TokEnd kw k p k') (h : OptGapTxt ind ir g) : Go kw p k' g (TokenOrGap kw k) :=
  (go_optGap hp.gapPos h).mono fun p' k'' hq => by
    obtain ⟨rfl, ⟨-, rfl⟩ | rfl⟩ := hq
    · exact .inl hp
    · exact .inr ⟨hp.1, rfl⟩

theorem go_whites_end {p k k' w} (hp : TokEnd kw k p k') (h : Whites w) : Go kw p k' w (TokenOrGap kw k) :=
  (go_whites hp.gapPos h).mono fun p' k'' hq => by
    obtain ⟨rfl, ⟨-, rfl⟩ | ⟨-, rfl⟩⟩ := hq
    · exact .inl hp
    · exact .inr ⟨hp.1, rfl⟩

/-- Optional white space where a gap may be, and nothing changes by it. -/
theorem go_optGap_keep {p k ind ir g} {P : Pos → List Char → Prop} (hp : GapPos kw p) (h : OptGapTxt ind ir g)
    (h1 : P p k) (h2 : P .gap k) : Go kw p k g fun p' k' => k' = k ∧ P p' k :=
  (go_optGap hp h).mono fun p' k'' hq => by
    obtain ⟨rfl, ⟨-, rfl⟩ | rfl⟩ := hq
    · exact ⟨rfl, h1⟩
    · exact ⟨rfl, h2⟩

theorem go_whites_keep {p k w} {P : Pos → List Char → Prop} (hp : GapPos kw p) (h : Whites w)
    (h1 : P p k) (h2 : P .gap k) : Go kw p k w fun p' k' => k' = k ∧ P p' k :=
  (go_whites hp h).mono fun p' k'' hq => by
    obtain ⟨rfl, ⟨-, rfl⟩ | ⟨-, rfl⟩⟩ := hq
    · exact ⟨rfl, h1⟩
    · exact ⟨rfl, h2⟩

/-- `(` -/
theorem step_paren {p k} (hp : TakesOpen kw p k) : stepAt kw p k '(' = some (.at .paren ('(' :: k)) := hp '(' (by decide)
/-- `[` -/
theorem step_bracket {p k} (hp : TakesOpen kw p k) : stepAt kw p k '[' = some (.at .gap ('[' :: k)) := hp '[' (by decide)
/-- `{` -/
theorem step_brace {p k} (hp : TakesOpen kw p k) : stepAt kw p k '{' = some (.at .brace ('{' :: k)) := hp '{' (by decide)

/-! ### Type variables -/

/-- No type variable is a word that is matched. -/
def Fine (kw : Bool) (ns : List Name) : Prop := kw = true → ∀ n ∈ ns, n ∉ blockWords

theorem fine_append {a b : List Name} : Fine kw (a ++ b) ↔ Fine kw a ∧ Fine kw b :=
  ⟨fun h => ⟨fun k n hn => h k n (by simp [hn]), fun k n hn => h k n (by simp [hn])⟩,
    fun h k n hn => (List.mem_append.1 hn).elim (h.1 k n) (h.2 k n)⟩

theorem fine_plain {n : Name} (h : Fine kw [n]) : NoBlock kw n := by
  cases kw with
  | false => exact fun _ => rfl
  | true => exact plain_word_of (h rfl n (by simp))

theorem tyFieldVars_cons {f fs} : tyFieldVars (f :: fs) = tyVars f.2 ++ tyFieldVars fs := by cases f; simp [tyFieldVars]
theorem fieldTyVars_cons {f fs} : fieldTyVars (f :: fs) = exprTyVars f.2 ++ fieldTyVars fs := by cases f; simp [fieldTyVars]
theorem branchTyVars_cons {b bs} : branchTyVars (b :: bs) = exprTyVars b.1 ++ exprTyVars b.2 ++ branchTyVars bs := by
  cases b; simp [branchTyVars]
theorem apps_tyVars {es : List Expr} {e : Expr} : exprTyVars (es.foldl .Application e) = exprTyVars e ++ exprsTyVars es := by
  induction es generalizing e with
  | nil => simp [exprsTyVars]
  | cons x es ih =>
    rw [List.foldl_cons, ih]
    simp [exprTyVars, exprsTyVars]

def tyCatVars : TyCat → List Name
  | .atom t | .par t | .ty t | .ann t => tyVars t
  | .args ts | .items ts => tysVars ts
  | .field f => tyVars f.2
  | .fields fs => tyFieldVars fs

def defnTyVars : FunctionDefinition → List Name
  | .mk _ as e => exprsTyVars as ++ exprTyVars e

def catVars : Cat → List Name
  | .closed e | .term e | .app e | .expr e | .target e => exprTyVars e
  | .args es | .items es | .comps es | .largs es | .fargs es => exprsTyVars es
  | .field f | .upd f => exprTyVars f.2
  | .fields fs | .upds fs => fieldTyVars fs
  | .entry l => entryTyVars l
  | .entries ls => entriesTyVars ls
  | .defn d => defnTyVars d
  | .fn f => functionTyVars f
  | .branch b => exprTyVars b.1 ++ exprTyVars b.2
  | .branches bs => branchTyVars bs

theorem fnTyVars_none {d} : functionTyVars (.mk none d) = defnTyVars d := by cases d; simp [functionTyVars, defnTyVars]
theorem fnTyVars_some {g d} : functionTyVars (.mk (some g) d) = tyVars g.type_ ++ defnTyVars d := by
  cases d; simp [functionTyVars, defnTyVars]

macro "fine " h:ident : tactic => `(tactic| (
  simp only [statementTyVars, tyCatVars, tyVars, tysVars, tyFieldVars_cons, catVars, exprTyVars, exprsTyVars, fieldTyVars_cons,
    branchTyVars_cons, entriesTyVars, entryTyVars, fnTyVars_none, fnTyVars_some, defnTyVars, apps_tyVars, fine_append] at $h:ident ⊢
  first | exact $h | exact ($h).1 | exact ($h).2 | exact ($h).1.1 | exact ($h).1.2 | exact ($h).2.1 | exact ($h).2.2))

/-! ### Types -/

def ScanTy (kw : Bool) (cat : TyCat) (c : Str) : Prop :=
  Fine kw (tyCatVars cat) → match cat with
  | .atom _ | .par _ | .ty _ | .ann _ => ∀ p k, TyPos kw p k → Go kw p k c (TokEnd kw k)
  | .args _ | .items _ => ∀ p k, TokEnd kw k p k → Go kw p k c (TokEnd kw k)
  | .field _ => ∀ p k, TakesWord kw p k → inBraces k = true → Go kw p k c (TokEnd kw k)
  | .fields _ => ∀ p k, TokEnd kw k p k → inBraces k = true → Go kw p k c (TokEnd kw k)

theorem go_arrow {k} : Go kw .gap k c!"->" fun p' k' => k' = k ∧ p' = .op false c!"->" := .inr ⟨_, _, rfl, rfl, rfl⟩

theorem tySrc_scan {ind cat c} (h : TySrc ind cat c) : ScanTy kw cat c := by
  induction h with
  | var h =>
    intro hv
    exact fun p k hp => (go_tyVar hp.word h (fine_plain (by fine hv))).mono fun _ _ h => h.tokEnd
  | extRecord h1 hn h2 h3 _ _ h4 ih1 ih2 =>
    intro hv
    replace ih1 := ih1 (by fine hv)
    replace ih2 := ih2 (by fine hv)
    intro p k hp
    simp only [List.append_assoc]
    refine .cons (step_brace hp.opens) ((go_gap gapPos_brace h1).append fun _ _ hq => ?_)
    obtain ⟨rfl, rfl⟩ := hq
    refine (go_tyVar word_gap hn (fine_plain (by fine hv))).append fun _ _ hq => ?_
    obtain rfl := hq.1
    refine (go_gap hq.tokEnd.gapPos h2).append fun _ _ hq => ?_
    obtain ⟨rfl, rfl⟩ := hq
    refine .cons (p' := .op false c!"|") (k' := '{' :: k) rfl ((go_gap (gapPos_op (by decide) (by simp)) h3).append fun _ _ hq => ?_)
    obtain ⟨rfl, rfl⟩ := hq
    refine (ih1 _ _ word_gap rfl).append fun p' _ hq => ?_
    obtain rfl := hq.1
    refine (ih2 _ _ hq rfl).append fun p' _ hq => ?_
    obtain rfl := hq.1
    refine (go_gap hq.gapPos h4).append fun _ _ hq => ?_
    exact go_close (.inr hq) rfl
  | record0 h =>
    intro hv
    intro p k hp
    refine .cons (step_brace hp.opens) ?_
    rcases h with rfl | ⟨i, h⟩
    · exact .inr ⟨_, _, rfl, rfl, .inr (.inl rfl)⟩
    · exact (go_gap gapPos_brace h).append fun _ _ hq => go_close (.inr hq) rfl
  | record h1 _ _ h2 ih1 ih2 =>
    intro hv
    replace ih1 := ih1 (by fine hv)
    replace ih2 := ih2 (by fine hv)
    intro p k hp
    simp only [List.append_assoc]
    refine .cons (step_brace hp.opens) ((go_optGap_keep (P := TakesWord kw) gapPos_brace h1 word_brace word_gap).append fun p' _ hq => ?_)
    obtain ⟨rfl, hq⟩ := hq
    refine (ih1 _ _ hq rfl).append fun p' _ hq => ?_
    obtain rfl := hq.1
    refine (ih2 _ _ hq rfl).append fun p' _ hq => ?_
    obtain rfl := hq.1
    exact (go_optGap_end hq h2).append fun _ _ hq => go_close hq rfl
  | tuple0 h =>
    intro hv
    intro p k hp
    refine .cons (step_paren hp.opens) ?_
    rcases h with rfl | ⟨i, h⟩
    · exact .inr ⟨_, _, rfl, rfl, .inr (.inl rfl)⟩
    · exact (go_gap gapPos_paren h).append fun _ _ hq => go_close (.inr hq) rfl
  | tuple h1 _ _ h2 ih1 ih2 =>
    intro hv
    replace ih1 := ih1 (by fine hv)
    replace ih2 := ih2 (by fine hv)
    intro p k hp
    simp only [List.append_assoc]
    refine .cons (step_paren hp.opens) ((go_optGap_keep (P := TyPos kw) gapPos_paren h1 tyPos_paren tyPos_gap).append fun p' _ hq => ?_)
    obtain ⟨rfl, hq⟩ := hq
    refine (ih1 _ _ hq).append fun p' _ hq => ?_
    obtain rfl := hq.1
    refine (ih2 _ _ hq).append fun p' _ hq => ?_
    obtain rfl := hq.1
    exact (go_optGap_end hq h2).append fun _ _ hq => go_close hq rfl
  | parens h1 _ h2 h3 _ h4 ih1 ih2 =>
    intro hv
    replace ih1 := ih1 (by fine hv)
    replace ih2 := ih2 (by fine hv)
    intro p k hp
    simp only [List.append_assoc]
    refine .cons (step_paren hp.opens) ((go_optGap_keep (P := TyPos kw) gapPos_paren h1 tyPos_paren tyPos_gap).append fun p' _ hq => ?_)
    obtain ⟨rfl, hq⟩ := hq
    refine (ih1 _ _ hq).append fun p' _ hq => ?_
    obtain rfl := hq.1
    refine (go_spaceNl hq.gapPos h2).append fun _ _ hq => ?_
    obtain ⟨rfl, rfl⟩ := hq
    refine go_arrow.append fun _ _ hq => ?_
    obtain ⟨rfl, rfl⟩ := hq
    refine (go_spaceNl (gapPos_op (by decide) (by simp)) h3).append fun _ _ hq => ?_
    obtain ⟨rfl, rfl⟩ := hq
    refine (ih2 _ _ tyPos_gap).append fun p' _ hq => ?_
    obtain rfl := hq.1
    exact (go_optGap_end hq h4).append fun _ _ hq => go_close hq rfl
  | parAtom _ ih =>
    intro hv
    replace ih := ih (by fine hv)
    exact ih
  | parConst hne h =>
    intro hv
    exact fun p k hp => (go_dotted hp.word hne h).mono fun _ _ h => h.tokEnd
  | tyAtom _ ih =>
    intro hv
    replace ih := ih (by fine hv)
    exact ih
  | con hne h _ ih =>
    intro hv
    replace ih := ih (by fine hv)
    intro p k hp
    refine (go_dotted hp.word hne h).append fun p' _ hq => ?_
    obtain rfl := hq.1
    exact ih _ _ hq.tokEnd
  | args0 =>
    intro hv
    exact fun p k hp => .nil hp
  | args h _ _ ih1 ih2 =>
    intro hv
    replace ih1 := ih1 (by fine hv)
    replace ih2 := ih2 (by fine hv)
    intro p k hp
    simp only [List.append_assoc]
    refine (go_gap hp.gapPos h).append fun _ _ hq => ?_
    obtain ⟨rfl, rfl⟩ := hq
    refine (ih1 _ _ tyPos_gap).append fun p' _ hq => ?_
    obtain rfl := hq.1
    exact ih2 _ _ hq
  | items0 =>
    intro hv
    exact fun p k hp => .nil hp
  | items h1 h2 _ _ ih1 ih2 =>
    intro hv
    replace ih1 := ih1 (by fine hv)
    replace ih2 := ih2 (by fine hv)
    intro p k hp
    simp only [List.append_assoc]
    refine (go_optGap_end hp h1).append fun p' _ hq => .cons (step_comma' hq) ?_
    have := hq.elim (·.1) (·.1)
    subst this
    refine (go_optGap_keep (P := TyPos kw) gapPos_gap h2 tyPos_gap tyPos_gap).append fun p' _ hq => ?_
    obtain ⟨rfl, hq⟩ := hq
    refine (ih1 _ _ hq).append fun p' _ hq => ?_
    obtain rfl := hq.1
    exact ih2 _ _ hq
  | field hn h1 h2 _ ih =>
    intro hv
    replace ih := ih (by fine hv)
    intro p k hp hk
    simp only [List.append_assoc]
    refine (go_lo hp hn).append fun p' _ hq => ?_
    obtain rfl := hq.1
    refine (go_optGap_end hq.tokEnd h1).append fun p' _ hq => .cons (step_sym hk hq (by decide)) ?_
    have := hq.elim (·.1) (·.1)
    subst this
    refine (go_optGap_keep (P := TyPos kw) (gapPos_op (by decide) (by simp)) h2 (tyPos_colon hk) tyPos_gap).append fun p' _ hq => ?_
    obtain ⟨rfl, hq⟩ := hq
    exact ih _ _ hq
  | fields0 =>
    intro hv
    exact fun p k hp _ => .nil hp
  | fields h1 h2 _ _ ih1 ih2 =>
    intro hv
    replace ih1 := ih1 (by fine hv)
    replace ih2 := ih2 (by fine hv)
    intro p k hp hk
    simp only [List.append_assoc]
    refine (go_optGap_end hp h1).append fun p' _ hq => .cons (step_comma' hq) ?_
    have := hq.elim (·.1) (·.1)
    subst this
    refine (go_optGap_keep (P := TakesWord kw) gapPos_gap h2 word_gap word_gap).append fun p' _ hq => ?_
    obtain ⟨rfl, hq⟩ := hq
    refine (ih1 _ _ hq hk).append fun p' _ hq => ?_
    obtain rfl := hq.1
    exact ih2 _ _ hq hk
  | annTy _ ih =>
    intro hv
    replace ih := ih (by fine hv)
    exact ih
  | annArrow _ h2 h3 _ ih1 ih2 =>
    intro hv
    replace ih1 := ih1 (by fine hv)
    replace ih2 := ih2 (by fine hv)
    intro p k hp
    simp only [List.append_assoc]
    refine (ih1 _ _ hp).append fun p' _ hq => ?_
    obtain rfl := hq.1
    refine (go_spaceNl hq.gapPos h2).append fun _ _ hq => ?_
    obtain ⟨rfl, rfl⟩ := hq
    refine go_arrow.append fun _ _ hq => ?_
    obtain ⟨rfl, rfl⟩ := hq
    refine (go_spaceNl (gapPos_op (by decide) (by simp)) h3).append fun _ _ hq => ?_
    obtain ⟨rfl, rfl⟩ := hq
    exact ih2 _ _ tyPos_gap

/-! ### Expressions -/

def ScanCat (kw : Bool) (cat : Cat) (c : Str) : Prop :=
  Fine kw (catVars cat) → match cat with
  | .closed _ | .term _ => ∀ p k, TermPos kw p k → Go kw p k c (TokEnd kw k)
  | .app _ | .expr _ | .branch _ => ∀ p k, ExprPos kw p k → Go kw p k c (TokEnd kw k)
  | .target _ | .entry _ | .defn _ | .fn _ => ∀ k, Go kw .gap k c (TokEnd kw k)
  | .field _ | .upd _ => ∀ p k, TakesWord kw p k → inBraces k = true → Go kw p k c (TokEnd kw k)
  | .fields _ | .upds _ => ∀ p k, TokEnd kw k p k → inBraces k = true → Go kw p k c (TokEnd kw k)
  | .comps _ => ∀ p k, TokenOrGap kw k p k → Go kw p k c (TokenOrGap kw k)
  | .args _ | .items _ | .largs _ | .entries _ | .fargs _ | .branches _ =>
      ∀ p k, TokEnd kw k p k → Go kw p k c (TokEnd kw k)

theorem simpFields_scan {fs c} (h : SimpFields fs c) : ∀ p k, TokenOrGap kw k p k → Go kw p k c (TokenOrGap kw k) := by
  induction h with
  | nil => exact fun p k hp => .nil hp
  | cons hn h1 h2 _ ih =>
    intro p k hp
    simp only [List.append_assoc]
    refine .cons (step_comma' hp) ((go_whites_keep (P := TakesWord kw) gapPos_gap h1 word_gap word_gap).append fun p' _ hq => ?_)
    obtain ⟨rfl, hq⟩ := hq
    refine (go_lo hq hn).append fun p' _ hq => ?_
    obtain rfl := hq.1
    refine (go_whites_end hq.tokEnd h2).append fun p' _ hq => ?_
    have := hq.elim (·.1) (·.1)
    subst this
    exact ih _ _ hq

theorem simpBody_scan {fs c} {p k} (hp : TakesOpen kw p k) (h : SimpBody fs c) :
    Go kw p k (c!"{" ++ c ++ c!"}") (TokEnd kw k) := by
  rw [List.append_assoc]
  refine .cons (step_brace hp) ?_
  cases h with
  | nil => exact .inr ⟨_, _, rfl, rfl, .inr (.inl rfl)⟩
  | cons hn h1 h2 h =>
    simp only [List.append_assoc]
    refine (go_whites_keep (P := TakesWord kw) gapPos_brace h1 word_brace word_gap).append fun p' _ hq => ?_
    obtain ⟨rfl, hq⟩ := hq
    refine (go_lo hq hn).append fun p' _ hq => ?_
    obtain rfl := hq.1
    refine (go_whites_end hq.tokEnd h2).append fun p' _ hq => ?_
    have := hq.elim (·.1) (·.1)
    subst this
    exact (simpFields_scan h _ _ hq).append fun _ _ hq => go_close hq rfl

/-- A keyword that is not matched. -/
theorem go_kw {p k w} (hp : TakesWord kw p k) (hne : w ≠ []) (h : ∀ c ∈ w, IdentChar c) (hw : w ∉ blockWords) :
    Go kw p k w (AtWord kw k) := go_plain hp hne h (plain_word_of hw)
theorem AtWord.gapPos {k p k'} (h : AtWord kw k p k') : GapPos kw p := h.tokEnd.gapPos

/-- What is open after a word that opens something. -/
def opened (kw : Bool) (o : Char) (k : List Char) : List Char := if kw then o :: k else k

/-- A word that is matched, and the gap after it. -/
theorem go_block {p k k' w ind ir i g} (hp : TakesWord kw p k) (hne : w ≠ []) (h : ∀ c ∈ w, IdentChar c)
    (hw : endWord kw w k = some k') (hg : GapTxt ind ir i g) {s} {Q} (hs : Go kw .gap k' s Q) : Go kw p k (w ++ (g ++ s)) Q := by
  refine (go_word hp hne h).append fun _ _ hq => ?_
  obtain ⟨rfl, rfl⟩ := hq
  refine (go_gapAt (.inl ⟨w, rfl, hw⟩) hg).append fun _ _ hq => ?_
  obtain ⟨rfl, rfl⟩ := hq
  exact hs

theorem go_infix {k o} (h : InfixOp o) : Go kw .gap k o fun p' k' => k' = k ∧ GapPos kw p' := by
  rcases h with rfl | ⟨h, -⟩
  · exact (go_kw word_gap (by decide) (by decide) (by decide)).mono fun _ _ h => ⟨h.1, h.gapPos⟩
  · refine (go_operator h).mono fun _ _ hq => ⟨hq.1, ?_⟩
    rw [hq.2]
    exact gapPos_op (fun e => h.2.2 (by rw [e]; decide)) h.1

theorem brackets_scan {ind g1 c cs g2 p k} (hp : TakesOpen kw p k) (h1 : OptGapTxt ind .GTE g1)
    (ih1 : ∀ p k, ExprPos kw p k → Go kw p k c (TokEnd kw k)) (ih2 : ∀ p k, TokEnd kw k p k → Go kw p k cs (TokEnd kw k))
    (h2 : OptGapTxt ind .GTE g2) : Go kw p k (c!"[" ++ g1 ++ c ++ cs ++ g2 ++ c!"]") (TokEnd kw k) := by
  simp only [List.append_assoc]
  refine .cons (step_bracket hp) ((go_optGap_keep (P := ExprPos kw) gapPos_gap h1 exprPos_gap exprPos_gap).append fun p' _ hq => ?_)
  obtain ⟨rfl, hq⟩ := hq
  refine (ih1 _ _ hq).append fun p' _ hq => ?_
  obtain rfl := hq.1
  refine (ih2 _ _ hq).append fun p' _ hq => ?_
  obtain rfl := hq.1
  exact (go_optGap_end hq h2).append fun _ _ hq => go_close hq rfl

theorem brackets0_scan {ind g p k} (hp : TakesOpen kw p k) (h : OptGapTxt ind .GTE g) :
    Go kw p k (c!"[" ++ g ++ c!"]") (TokEnd kw k) := by
  rw [List.append_assoc]
  refine .cons (step_bracket hp) ?_
  rcases h with rfl | ⟨i, h⟩
  · exact .inr ⟨_, _, rfl, rfl, .inr (.inl rfl)⟩
  · exact (go_gap gapPos_gap h).append fun _ _ hq => go_close (.inr hq) rfl

theorem parens_scan {w1 c w2 cs p k} (hp : TakesOpen kw p k) (h1 : Whites w1)
    (ih1 : ∀ p k, ExprPos kw p k → Go kw p k c (TokEnd kw k)) (h2 : Whites w2)
    (ih2 : ∀ p k, TokenOrGap kw k p k → Go kw p k cs (TokenOrGap kw k)) :
    Go kw p k (c!"(" ++ w1 ++ c ++ w2 ++ cs ++ c!")") (TokEnd kw k) := by
  simp only [List.append_assoc]
  refine .cons (step_paren hp) ((go_whites_keep (P := ExprPos kw) gapPos_paren h1 exprPos_paren exprPos_gap).append fun p' _ hq => ?_)
  obtain ⟨rfl, hq⟩ := hq
  refine (ih1 _ _ hq).append fun p' _ hq => ?_
  obtain rfl := hq.1
  refine (go_whites_end hq h2).append fun p' _ hq => ?_
  have := hq.elim (·.1) (·.1)
  subst this
  exact (ih2 _ _ hq).append fun p' _ hq => go_close hq rfl

theorem src_scan {st : Prop} {ind j cat c} (h : SrcAt st ind j cat c) : ScanCat kw cat c := by
  induction h with
  | var h =>
    intro hv
    exact fun p k hp => go_var hp.ty h
  | access h hn =>
    intro hv
    intro p k hp
    refine (go_var hp.ty h).append fun p' _ hq => ?_
    obtain rfl := hq.1
    exact go_dots hq hn
  | accessFn hn =>
    intro hv
    intro p k hp
    obtain ⟨q, w, h1, h2⟩ := hp.dot
    exact .cons h1 ((go_lo h2 hn).mono fun _ _ h => h.tokEnd)
  | str0 =>
    intro hv
    intro p k hp
    exact .cons (p' := .quote) (k' := k) (hp.opens '"' (by decide)) (.inr ⟨_, _, rfl, rfl, .inr (.inr rfl)⟩)
  | int h =>
    intro hv
    exact fun p k hp => go_int hp h
  | float h =>
    intro hv
    exact fun p k hp => go_float hp h
  | closed _ ih =>
    intro hv
    replace ih := ih (by fine hv)
    exact ih
  | str1 h hne =>
    intro hv
    exact fun p k hp => go_string hp.opens h hne
  | str3 h =>
    intro hv
    exact fun p k hp => go_string3 hp.opens h
  | char h =>
    intro hv
    exact fun p k hp => go_char hp.opens h
  | parens _ ih =>
    intro hv
    replace ih := ih (by fine hv)
    intro p k hp
    rw [List.append_assoc]
    refine .cons (step_paren hp.opens) ((ih _ _ exprPos_paren).append fun p' _ hq => go_close (.inl hq) rfl)
  | list0 h =>
    intro hv
    exact fun p k hp => brackets0_scan hp.opens h
  | list h1 _ _ h2 ih1 ih2 =>
    intro hv
    replace ih1 := ih1 (by fine hv)
    replace ih2 := ih2 (by fine hv)
    exact fun p k hp => brackets_scan hp.opens h1 ih1 ih2 h2
  | tuple0 =>
    intro hv
    exact fun p k hp => .cons (step_paren hp.opens) (.inr ⟨_, _, rfl, rfl, .inr (.inl rfl)⟩)
  | tuple1 h1 h2 _ _ ih =>
    intro hv
    replace ih := ih (by fine hv)
    intro p k hp
    have := parens_scan (cs := []) hp.opens h1 ih h2 (fun p k hp => .nil hp)
    rwa [List.append_nil] at this
  | tuple h1 h2 _ _ _ ih1 ih2 =>
    intro hv
    replace ih1 := ih1 (by fine hv)
    replace ih2 := ih2 (by fine hv)
    exact fun p k hp => parens_scan hp.opens h1 ih1 h2 ih2
  | record0 h =>
    intro hv
    intro p k hp
    refine .cons (step_brace hp.opens) ?_
    rcases h with rfl | ⟨i, h⟩
    · exact .inr ⟨_, _, rfl, rfl, .inr (.inl rfl)⟩
    · exact (go_gap gapPos_brace h).append fun _ _ hq => go_close (.inr hq) rfl
  | record h1 _ _ h2 ih1 ih2 =>
    intro hv
    replace ih1 := ih1 (by fine hv)
    replace ih2 := ih2 (by fine hv)
    intro p k hp
    simp only [List.append_assoc]
    refine .cons (step_brace hp.opens) ((go_optGap_keep (P := TakesWord kw) gapPos_brace h1 word_brace word_gap).append fun p' _ hq => ?_)
    obtain ⟨rfl, hq⟩ := hq
    refine (ih1 _ _ hq rfl).append fun p' _ hq => ?_
    obtain rfl := hq.1
    refine (ih2 _ _ hq rfl).append fun p' _ hq => ?_
    obtain rfl := hq.1
    exact (go_optGap_end hq h2).append fun _ _ hq => go_close hq rfl
  | simp h =>
    intro hv
    exact fun p k hp => simpBody_scan hp.opens h
  | update h1 hn h2 hw _ _ h3 ih1 ih2 =>
    intro hv
    replace ih1 := ih1 (by fine hv)
    replace ih2 := ih2 (by fine hv)
    intro p k hp
    simp only [List.append_assoc]
    refine .cons (step_brace hp.opens) ((go_optGap_keep (P := TakesWord kw) gapPos_brace h1 word_brace word_gap).append fun p' _ hq => ?_)
    obtain ⟨rfl, hq⟩ := hq
    refine (go_lo hq hn).append fun p' _ hq => ?_
    obtain rfl := hq.1
    refine (go_optGap_end hq.tokEnd h2).append fun p' _ hq => .cons (step_sym rfl hq (by decide)) ?_
    have := hq.elim (·.1) (·.1)
    subst this
    refine (go_whites_keep (P := TakesWord kw) (gapPos_op (by decide) (by simp)) hw (word_op fun _ => rfl) word_gap).append fun p' _ hq => ?_
    obtain ⟨rfl, hq⟩ := hq
    refine (ih1 _ _ hq rfl).append fun p' _ hq => ?_
    obtain rfl := hq.1
    refine (ih2 _ _ hq rfl).append fun p' _ hq => ?_
    obtain rfl := hq.1
    exact (go_gap hq.gapPos h3).append fun _ _ hq => go_close (.inr hq) rfl
  | update0 h1 hn h2 hw h3 =>
    intro hv
    intro p k hp
    simp only [List.append_assoc]
    refine .cons (step_brace hp.opens) ((go_optGap_keep (P := TakesWord kw) gapPos_brace h1 word_brace word_gap).append fun p' _ hq => ?_)
    obtain ⟨rfl, hq⟩ := hq
    refine (go_lo hq hn).append fun p' _ hq => ?_
    obtain rfl := hq.1
    refine (go_optGap_end hq.tokEnd h2).append fun p' _ hq => .cons (step_sym rfl hq (by decide)) ?_
    have := hq.elim (·.1) (·.1)
    subst this
    refine (go_whites_keep (P := fun p _ => GapPos kw p) (gapPos_op (by decide) (by simp)) hw (gapPos_op (by decide) (by simp)) gapPos_gap).append fun p' _ hq => ?_
    obtain ⟨rfl, hq⟩ := hq
    exact (go_gap hq h3).append fun _ _ hq => go_close (.inr hq) rfl
  | items0 =>
    intro hv
    exact fun p k hp => .nil hp
  | items h1 h2 _ _ ih1 ih2 =>
    intro hv
    replace ih1 := ih1 (by fine hv)
    replace ih2 := ih2 (by fine hv)
    intro p k hp
    simp only [List.append_assoc]
    refine (go_optGap_end hp h1).append fun p' _ hq => .cons (step_comma' hq) ?_
    have := hq.elim (·.1) (·.1)
    subst this
    refine (go_optGap_keep (P := ExprPos kw) gapPos_gap h2 exprPos_gap exprPos_gap).append fun p' _ hq => ?_
    obtain ⟨rfl, hq⟩ := hq
    refine (ih1 _ _ hq).append fun p' _ hq => ?_
    obtain rfl := hq.1
    exact ih2 _ _ hq
  | comps0 =>
    intro hv
    exact fun p k hp => .nil hp
  | comps h1 h2 _ _ ih1 ih2 =>
    intro hv
    replace ih1 := ih1 (by fine hv)
    replace ih2 := ih2 (by fine hv)
    intro p k hp
    simp only [List.append_assoc]
    refine .cons (step_comma' hp) ((go_whites_keep (P := ExprPos kw) gapPos_gap h1 exprPos_gap exprPos_gap).append fun p' _ hq => ?_)
    obtain ⟨rfl, hq⟩ := hq
    refine (ih1 _ _ hq).append fun p' _ hq => ?_
    obtain rfl := hq.1
    refine (go_whites_end hq h2).append fun p' _ hq => ?_
    have := hq.elim (·.1) (·.1)
    subst this
    exact ih2 _ _ hq
  | field hn h1 h2 _ ih =>
    intro hv
    replace ih := ih (by fine hv)
    intro p k hp hk
    simp only [List.append_assoc]
    refine (go_lo hp hn).append fun p' _ hq => ?_
    obtain rfl := hq.1
    refine (go_optGap_end hq.tokEnd h1).append fun p' _ hq => .cons (step_sym hk hq (by decide)) ?_
    have := hq.elim (·.1) (·.1)
    subst this
    refine (go_optGap_keep (P := ExprPos kw) (gapPos_op (by decide) (by simp)) h2 (exprPos_eq hk) exprPos_gap).append fun p' _ hq => ?_
    obtain ⟨rfl, hq⟩ := hq
    exact ih _ _ hq
  | fields0 =>
    intro hv
    exact fun p k hp _ => .nil hp
  | fields h1 h2 _ _ ih1 ih2 =>
    intro hv
    replace ih1 := ih1 (by fine hv)
    replace ih2 := ih2 (by fine hv)
    intro p k hp hk
    simp only [List.append_assoc]
    refine (go_optGap_end hp h1).append fun p' _ hq => .cons (step_comma' hq) ?_
    have := hq.elim (·.1) (·.1)
    subst this
    refine (go_optGap_keep (P := TakesWord kw) gapPos_gap h2 word_gap word_gap).append fun p' _ hq => ?_
    obtain ⟨rfl, hq⟩ := hq
    refine (ih1 _ _ hq hk).append fun p' _ hq => ?_
    obtain rfl := hq.1
    exact ih2 _ _ hq hk
  | upd hn h1 h2 _ ih =>
    intro hv
    replace ih := ih (by fine hv)
    intro p k hp hk
    simp only [List.append_assoc]
    refine (go_lo hp hn).append fun p' _ hq => ?_
    obtain rfl := hq.1
    refine (go_whites_end hq.tokEnd h1).append fun p' _ hq => .cons (step_sym hk hq (by decide)) ?_
    have := hq.elim (·.1) (·.1)
    subst this
    refine (go_whites_keep (P := ExprPos kw) (gapPos_op (by decide) (by simp)) h2 (exprPos_eq hk) exprPos_gap).append fun p' _ hq => ?_
    obtain ⟨rfl, hq⟩ := hq
    exact ih _ _ hq
  | upds0 =>
    intro hv
    exact fun p k hp _ => .nil hp
  | upds h1 h2 _ _ ih1 ih2 =>
    intro hv
    replace ih1 := ih1 (by fine hv)
    replace ih2 := ih2 (by fine hv)
    intro p k hp hk
    simp only [List.append_assoc]
    refine (go_optGap_end hp h1).append fun p' _ hq => .cons (step_comma' hq) ?_
    have := hq.elim (·.1) (·.1)
    subst this
    refine (go_optGap_keep (P := TakesWord kw) gapPos_gap h2 word_gap word_gap).append fun p' _ hq => ?_
    obtain ⟨rfl, hq⟩ := hq
    refine (ih1 _ _ hq hk).append fun p' _ hq => ?_
    obtain rfl := hq.1
    exact ih2 _ _ hq hk
  | args0 =>
    intro hv
    exact fun p k hp => .nil hp
  | args h _ _ ih1 ih2 =>
    intro hv
    replace ih1 := ih1 (by fine hv)
    replace ih2 := ih2 (by fine hv)
    intro p k hp
    simp only [List.append_assoc]
    refine (go_gap hp.gapPos h).append fun _ _ hq => ?_
    obtain ⟨rfl, rfl⟩ := hq
    refine (ih1 _ _ termPos_gap).append fun p' _ hq => ?_
    obtain rfl := hq.1
    exact ih2 _ _ hq
  | app _ _ ih1 ih2 =>
    intro hv
    replace ih1 := ih1 (by fine hv)
    replace ih2 := ih2 (by fine hv)
    intro p k hp
    refine (ih1 _ _ hp.term).append fun p' _ hq => ?_
    obtain rfl := hq.1
    exact ih2 _ _ hq
  | eApp _ ih =>
    intro hv
    replace ih := ih (by fine hv)
    exact ih
  | binop _ h1 ho hw hne _ ih1 ih2 =>
    intro hv
    replace ih1 := ih1 (by fine hv)
    replace ih2 := ih2 (by fine hv)
    intro p k hp
    simp only [List.append_assoc]
    refine (ih1 _ _ hp).append fun p' _ hq => ?_
    obtain rfl := hq.1
    refine (go_gap hq.gapPos h1).append fun _ _ hq => ?_
    obtain ⟨rfl, rfl⟩ := hq
    refine (go_infix ho).append fun p' _ hq => ?_
    obtain ⟨rfl, hg⟩ := hq
    refine (go_whites1 hg hw hne).append fun _ _ hq => ?_
    obtain ⟨rfl, rfl⟩ := hq
    exact ih2 _ _ exprPos_gap
  | let_ h1 _ _ h2 h3 _ ih1 ih2 ih3 =>
    intro hv
    replace ih1 := ih1 (by fine hv)
    replace ih2 := ih2 (by fine hv)
    replace ih3 := ih3 (by fine hv)
    intro p k hp
    simp only [List.append_assoc]
    refine go_block (k' := opened kw 'l' k) hp.term.word (by decide) (by decide) (by cases kw <;> rfl) h1 ?_
    refine (ih1 _).append fun p' _ hq => ?_
    obtain rfl := hq.1
    refine (ih2 _ _ hq).append fun p' _ hq => ?_
    obtain rfl := hq.1
    refine (go_gap hq.gapPos h2).append fun _ _ hq => ?_
    obtain ⟨rfl, rfl⟩ := hq
    refine go_block (k' := k) word_gap (by decide) (by decide) (by cases kw <;> rfl) h3 ?_
    exact ih3 _ _ exprPos_gap
  | case_ h1 _ h2 h3 _ _ _ ih1 ih2 ih3 =>
    intro hv
    replace ih1 := ih1 (by fine hv)
    replace ih2 := ih2 (by fine hv)
    replace ih3 := ih3 (by fine hv)
    intro p k hp
    simp only [List.append_assoc]
    refine go_block (k' := opened kw 'c' k) hp.term.word (by decide) (by decide) (by cases kw <;> rfl) h1 ?_
    refine (ih1 _ _ exprPos_gap).append fun p' _ hq => ?_
    obtain rfl := hq.1
    refine (go_gap hq.gapPos h2).append fun _ _ hq => ?_
    obtain ⟨rfl, rfl⟩ := hq
    refine go_block (k' := k) word_gap (by decide) (by decide) (by cases kw <;> rfl) h3 ?_
    refine (ih2 _ _ exprPos_gap).append fun p' _ hq => ?_
    obtain rfl := hq.1
    exact ih3 _ _ hq
  | if_ h1 _ h2 h3 _ h4 h5 _ ih1 ih2 ih3 =>
    intro hv
    replace ih1 := ih1 (by fine hv)
    replace ih2 := ih2 (by fine hv)
    replace ih3 := ih3 (by fine hv)
    intro p k hp
    simp only [List.append_assoc]
    refine go_block (k' := opened kw 'i' k) hp.term.word (by decide) (by decide) (by cases kw <;> rfl) h1 ?_
    refine (ih1 _ _ exprPos_gap).append fun p' _ hq => ?_
    obtain rfl := hq.1
    refine (go_gap hq.gapPos h2).append fun _ _ hq => ?_
    obtain ⟨rfl, rfl⟩ := hq
    refine go_block (k' := opened kw 't' k) word_gap (by decide) (by decide) (by cases kw <;> rfl) h3 ?_
    refine (ih2 _ _ exprPos_gap).append fun p' _ hq => ?_
    obtain rfl := hq.1
    refine (go_gap hq.gapPos h4).append fun _ _ hq => ?_
    obtain ⟨rfl, rfl⟩ := hq
    refine go_block (k' := k) word_gap (by decide) (by decide) (by cases kw <;> rfl) h5 ?_
    exact ih3 _ _ exprPos_gap
  | lambda _ _ h1 h2 _ ih1 ih2 ih3 =>
    intro hv
    replace ih1 := ih1 (by fine hv)
    replace ih2 := ih2 (by fine hv)
    replace ih3 := ih3 (by fine hv)
    intro p k hp
    simp only [List.append_assoc]
    obtain ⟨q, w, hs, ht⟩ := hp.fn
    refine .cons hs ((ih1 _ _ ht).append fun p' _ hq => ?_)
    obtain rfl := hq.1
    refine (ih2 _ _ hq).append fun p' _ hq => ?_
    obtain rfl := hq.1
    refine (go_gap hq.gapPos h1).append fun _ _ hq => ?_
    obtain ⟨rfl, rfl⟩ := hq
    refine go_arrow.append fun _ _ hq => ?_
    obtain ⟨rfl, rfl⟩ := hq
    refine (go_gap (gapPos_op (by decide) (by simp)) h2).append fun _ _ hq => ?_
    obtain ⟨rfl, rfl⟩ := hq
    exact ih3 _ _ exprPos_gap
  | largs0 =>
    intro hv
    exact fun p k hp => .nil hp
  | largs h _ _ ih1 ih2 =>
    intro hv
    replace ih1 := ih1 (by fine hv)
    replace ih2 := ih2 (by fine hv)
    intro p k hp
    simp only [List.append_assoc]
    refine (go_blanks hp.gapPos h).append fun _ _ hq => ?_
    obtain ⟨rfl, rfl⟩ := hq
    refine (ih1 _ _ termPos_gap).append fun p' _ hq => ?_
    obtain rfl := hq.1
    exact ih2 _ _ hq
  | tVar h =>
    intro hv
    exact fun k => go_var tyPos_gap h
  | tList0 h =>
    intro hv
    exact fun k => brackets0_scan opens_gap h
  | tList h1 _ _ h2 ih1 ih2 =>
    intro hv
    replace ih1 := ih1 (by fine hv)
    replace ih2 := ih2 (by fine hv)
    exact fun k => brackets_scan opens_gap h1 ih1 ih2 h2
  | tTuple0 =>
    intro hv
    exact fun k => .cons (step_paren opens_gap) (.inr ⟨_, _, rfl, rfl, .inr (.inl rfl)⟩)
  | tTuple h1 h2 _ _ ih1 ih2 =>
    intro hv
    replace ih1 := ih1 (by fine hv)
    replace ih2 := ih2 (by fine hv)
    exact fun k => parens_scan opens_gap h1 ih1 h2 ih2
  | tRecord h =>
    intro hv
    exact fun k => simpBody_scan opens_gap h
  | binding _ h1 h2 _ ih1 ih2 =>
    intro hv
    replace ih1 := ih1 (by fine hv)
    replace ih2 := ih2 (by fine hv)
    intro k
    simp only [List.append_assoc]
    refine (ih1 _).append fun p' _ hq => ?_
    obtain rfl := hq.1
    refine (go_gap hq.gapPos h1).append fun _ _ hq => ?_
    obtain ⟨rfl, rfl⟩ := hq
    refine .cons (p' := .op false c!"=") rfl ((go_gap (gapPos_op (by decide) (by simp)) h2).append fun _ _ hq => ?_)
    obtain ⟨rfl, rfl⟩ := hq
    exact ih2 _ _ exprPos_gap
  | function _ _ ih =>
    intro hv
    replace ih := ih (by fine hv)
    exact ih
  | entries0 =>
    intro hv
    exact fun p k hp => .nil hp
  | entries h _ _ _ ih1 ih2 =>
    intro hv
    replace ih1 := ih1 (by fine hv)
    replace ih2 := ih2 (by fine hv)
    intro p k hp
    simp only [List.append_assoc]
    refine (go_gap hp.gapPos h).append fun _ _ hq => ?_
    obtain ⟨rfl, rfl⟩ := hq
    refine (ih1 _).append fun p' _ hq => ?_
    obtain rfl := hq.1
    exact ih2 _ _ hq
  | fargs0 =>
    intro hv
    exact fun p k hp => .nil hp
  | fargs h _ _ ih1 ih2 =>
    intro hv
    replace ih1 := ih1 (by fine hv)
    replace ih2 := ih2 (by fine hv)
    intro p k hp
    simp only [List.append_assoc]
    refine (go_spaces hp.gapPos h).append fun _ _ hq => ?_
    obtain ⟨rfl, rfl⟩ := hq
    refine (ih1 _ _ termPos_gap).append fun p' _ hq => ?_
    obtain rfl := hq.1
    exact ih2 _ _ hq
  | defn hn _ hw hg _ ih1 ih2 =>
    intro hv
    replace ih1 := ih1 (by fine hv)
    replace ih2 := ih2 (by fine hv)
    intro k
    simp only [List.append_assoc]
    refine (go_fnName tyPos_gap hn).append fun p' _ hq => ?_
    obtain rfl := hq.1
    refine (ih1 _ _ hq).append fun p' _ hq => ?_
    obtain rfl := hq.1
    refine (go_spaces hq.gapPos hw).append fun _ _ hq => ?_
    obtain ⟨rfl, rfl⟩ := hq
    refine .cons (p' := .op false c!"=") rfl ((go_gap (gapPos_op (by decide) (by simp)) hg).append fun _ _ hq => ?_)
    obtain ⟨rfl, rfl⟩ := hq
    exact ih2 _ _ exprPos_gap
  | fn _ ih =>
    intro hv
    replace ih := ih (by fine hv)
    exact ih
  | fnSig hn hw hg ht _ _ ih =>
    intro hv
    replace ih := ih (by fine hv)
    intro k
    simp only [List.append_assoc]
    refine (go_fnName tyPos_gap hn).append fun p' _ hq => ?_
    obtain rfl := hq.1
    refine (go_spaces hq.gapPos hw).append fun _ _ hq => ?_
    obtain ⟨rfl, rfl⟩ := hq
    refine .cons (p' := .op false c!":") rfl ((go_gap (gapPos_op (by decide) (by simp)) hg).append fun _ _ hq => ?_)
    obtain ⟨rfl, rfl⟩ := hq
    refine (tySrc_scan ht (by fine hv) _ _ tyPos_gap).append fun p' _ hq => ?_
    obtain rfl := hq.1
    refine .cons (step_white hq.gapPos (.inr (.inr (.inr rfl)))) ((go_whites gapPos_gap whites_sp).append fun p' _ hq => ?_)
    obtain ⟨rfl, ⟨-, rfl⟩ | ⟨-, rfl⟩⟩ := hq
    · exact ih _
    · exact ih _
  | branch _ h1 h2 _ _ ih1 ih2 =>
    intro hv
    replace ih1 := ih1 (by fine hv)
    replace ih2 := ih2 (by fine hv)
    intro p k hp
    simp only [List.append_assoc]
    refine (ih1 _ _ hp).append fun p' _ hq => ?_
    obtain rfl := hq.1
    refine (go_gap hq.gapPos h1).append fun _ _ hq => ?_
    obtain ⟨rfl, rfl⟩ := hq
    refine go_arrow.append fun _ _ hq => ?_
    obtain ⟨rfl, rfl⟩ := hq
    refine (go_gap (gapPos_op (by decide) (by simp)) h2).append fun _ _ hq => ?_
    obtain ⟨rfl, rfl⟩ := hq
    exact ih2 _ _ exprPos_gap
  | branches0 =>
    intro hv
    exact fun p k hp => .nil hp
  | branches h _ _ _ ih1 ih2 =>
    intro hv
    replace ih1 := ih1 (by fine hv)
    replace ih2 := ih2 (by fine hv)
    intro p k hp
    simp only [List.append_assoc]
    refine (go_gap hp.gapPos h).append fun _ _ hq => ?_
    obtain ⟨rfl, rfl⟩ := hq
    refine (ih1 _ _ exprPos_gap).append fun p' _ hq => ?_
    obtain rfl := hq.1
    exact ih2 _ _ hq

end ElmParser
