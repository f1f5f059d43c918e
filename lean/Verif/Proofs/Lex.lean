import Verif.Proofs.Loops
import Verif.Spec.Lex

/-! The lexers do exactly what `Spec/Lex.lean` says. -/
namespace ElmParser
open Spec

variable {α β γ : Type}

theorem char_le_iff (a b : Char) : a ≤ b ↔ a.toNat ≤ b.toNat := Iff.rfl

theorem isLower_iff {c : Char} : isLower c = true ↔ Lower c := by
  simp only [isLower, decide_eq_true_eq, char_le_iff]; exact Iff.rfl
theorem isUpper_iff {c : Char} : isUpper c = true ↔ Upper c := by
  simp only [isUpper, decide_eq_true_eq, char_le_iff]; exact Iff.rfl
theorem isDigit_iff {c : Char} : isDigit c = true ↔ Digit c := by
  simp only [isDigit, decide_eq_true_eq, char_le_iff]; exact Iff.rfl
theorem isIdent_iff {c : Char} : isIdent c = true ↔ IdentChar c := by
  simp only [isIdent, Bool.or_eq_true, isLower_iff, isUpper_iff, isDigit_iff, beq_iff_eq,
    IdentChar, or_assoc]
theorem isTyVarChar_iff {c : Char} : isTyVarChar c = true ↔ TyVarChar c := by
  simp only [isTyVarChar, Bool.or_eq_true, isLower_iff, decide_eq_true_eq, beq_iff_eq,
    TyVarChar, or_assoc, char_le_iff]
  exact Iff.rfl
theorem isOpChar_iff {c : Char} : isOpChar c = true ↔ OpChar c := by
  simp only [isOpChar, OpChar, decide_eq_true_eq, List.mem_cons,
    List.not_mem_nil, or_false]
  grind
theorem isMultispace_iff {c : Char} : isMultispace c = true ↔ White c := by
  simp only [isMultispace, White, decide_eq_true_eq]

theorem reserved_iff {w : Str} : w ∈ reservedWords ↔ w ∈ keywords := by
  simp only [reservedWords, keywords, List.mem_cons, List.not_mem_nil, or_false]
  grind
theorem reservedOp_iff {w : Str} : w ∈ reservedOperators ↔ w ∈ reservedOps := by
  simp only [reservedOperators, reservedOps, List.mem_cons, List.not_mem_nil, or_false]
  grind

theorem notStart_iff {f : Char → Bool} {P : Char → Prop} (h : ∀ c, f c = true ↔ P c) {s : Str} :
    NotStart f s ↔ Next (fun c => ¬ P c) s := by
  simp only [NotStart, Next, ← h, Bool.not_eq_true]

theorem next_nil (P : Char → Prop) : Next P [] := by simp [Next]
theorem next_cons {P : Char → Prop} {c : Char} {s : Str} : Next P (c :: s) ↔ P c := by
  simp [Next]
theorem Next.imp {P Q : Char → Prop} {s : Str} (h : Next P s) (hPQ : ∀ c, P c → Q c) : Next Q s :=
  fun c r e => hPQ c (h c r e)

theorem word_iff {h t : Char → Bool} {H T : Char → Prop} (hh : ∀ c, h c = true ↔ H c)
    (ht : ∀ c, t c = true ↔ T c) {s m r : Str} :
    reHeadTail h t s = some (m, r) ↔ s = m ++ r ∧ Word H T m ∧ Next (fun c => ¬ T c) r := by
  rw [reHeadTail_iff, notStart_iff ht]
  simp only [Word, hh, ht]

/-- C05 -/
theorem loName_iff {s r : Str} {n : Name} :
    loName s = .ok n r ↔ s = n ++ r ∧
      (n = ['_'] ∨ (Word Lower IdentChar n ∧ n ∉ keywords ∧ Next (fun c => ¬ IdentChar c) r)) := by
  unfold loName loNameRe
  rw [alt_eq_ok, tag_eq_ok, reMatches_index]
  cases e : reHeadTail isLower isIdent s with
  | none =>
    simp only [reduceCtorEq, and_false, or_false]
    rw [reHeadTail_none, notStart_iff (fun c => isLower_iff)] at e
    constructor
    · rintro ⟨rfl, rfl⟩; exact ⟨rfl, .inl rfl⟩
    · rintro ⟨rfl, rfl | ⟨⟨c, cs, rfl, h, -⟩, -⟩⟩
      · exact ⟨rfl, rfl⟩
      · exact absurd h (e c _ rfl)
  | some x =>
    obtain ⟨m, r'⟩ := x
    have hm := (word_iff (fun c => isLower_iff) (fun c => isIdent_iff)).1 e
    obtain ⟨rfl, hw, hr⟩ := hm
    obtain ⟨c, cs, rfl, hc, hcs⟩ := hw
    have hne : c ≠ '_' := by rintro rfl; revert hc; unfold Lower; decide
    have htag : tag c!"_" (c :: cs ++ r') = .err := by
      simp [tag, stripPrefix, hne]
    simp only [htag, true_and]
    constructor
    · rintro (⟨rfl, h⟩ | h)
      · simp only [List.cons_append, List.cons.injEq] at h
        exact absurd h.1 hne
      · split at h
        · simp [fail_apply] at h
        · next hk =>
          obtain ⟨rfl, rfl⟩ := pure_eq_ok.1 h
          exact ⟨rfl, .inr ⟨⟨c, cs, rfl, hc, hcs⟩, fun h => hk (reserved_iff.2 h), hr⟩⟩
    · rintro ⟨h, rfl | ⟨hw, hk, hr'⟩⟩
      · simp only [List.cons_append, List.cons.injEq] at h
        exact absurd h.1 hne
      · right
        have : reHeadTail isLower isIdent (c :: cs ++ r') = some (n, r) :=
          (word_iff (fun c => isLower_iff) (fun c => isIdent_iff)).2 ⟨h, hw, hr'⟩
        rw [e] at this
        simp only [Option.some.injEq, Prod.mk.injEq] at this
        obtain ⟨rfl, rfl⟩ := this
        rw [if_neg (fun h => hk (reserved_iff.1 h))]
        rfl

/-- C06 -/
theorem upName_iff {s r : Str} {n : Name} :
    upName s = .ok n r ↔ s = n ++ r ∧ UpName n ∧ Next (fun c => ¬ IdentChar c) r := by
  unfold upName UpName
  rw [reMatches_index', ← word_iff (fun c => isUpper_iff) (fun c => isIdent_iff)]
  cases e : reHeadTail isUpper isIdent s with
  | none => simp
  | some x => obtain ⟨m, r'⟩ := x; simp

/-- C07 -/
theorem operator_iff {s r : Str} {n : Name} :
    operator s = .ok n r ↔ s = n ++ r ∧ Operator n ∧ Next (fun c => ¬ OpChar c) r := by
  unfold operator
  rw [reMatches_index]
  have hw := fun m r => word_iff (s := s) (m := m) (r := r) (fun c => @isOpChar_iff c)
    (fun c => @isOpChar_iff c)
  have hne : ∀ n, Word OpChar OpChar n ↔ (n ≠ [] ∧ ∀ c ∈ n, OpChar c) := by
    intro n
    cases n with
    | nil => simp [Word]
    | cons c cs => simp [Word]; grind
  simp only [Operator]
  cases e : rePlus isOpChar s with
  | none =>
    simp only [reduceCtorEq, false_iff]
    rintro ⟨h1, ⟨h2, h3, -⟩, h4⟩
    have := (hw n r).2 ⟨h1, (hne n).2 ⟨h2, h3⟩, h4⟩
    rw [show reHeadTail isOpChar isOpChar s = none from e] at this
    cases this
  | some x =>
    obtain ⟨m, r'⟩ := x
    obtain ⟨h1, h2, h3⟩ := (hw m r').1 e
    simp only
    constructor
    · intro h
      split at h
      · simp [fail_apply] at h
      · next hk =>
        obtain ⟨rfl, rfl⟩ := pure_eq_ok.1 h
        exact ⟨h1, ⟨((hne _).1 h2).1, ((hne _).1 h2).2, fun h => hk (reservedOp_iff.2 h)⟩, h3⟩
    · rintro ⟨g1, ⟨g2, g3, g4⟩, g5⟩
      have := (hw n r).2 ⟨g1, (hne n).2 ⟨g2, g3⟩, g5⟩
      rw [show reHeadTail isOpChar isOpChar s = some (m, r') from e] at this
      simp only [Option.some.injEq, Prod.mk.injEq] at this
      obtain ⟨rfl, rfl⟩ := this
      rw [if_neg (fun h => g4 (reservedOp_iff.1 h))]
      rfl

theorem typeVariable_iff {s r : Str} {t : Ty} :
    typeVariable s = .ok t r ↔
      ∃ n, t = .TypeVariable n ∧ s = n ++ r ∧ TyVar n ∧ Next (fun c => ¬ TyVarChar c) r := by
  unfold typeVariable TyVar
  rw [reMatches_index]
  simp only [← word_iff (fun c => @isLower_iff c) (fun c => @isTyVarChar_iff c)]
  cases e : reHeadTail isLower isTyVarChar s with
  | none => simp
  | some x =>
    obtain ⟨m, r'⟩ := x
    simp only [pure_eq_ok, Option.some.injEq, Prod.mk.injEq]
    constructor
    · rintro ⟨rfl, rfl⟩; exact ⟨m, rfl, rfl, rfl⟩
    · rintro ⟨n, rfl, rfl, rfl⟩; exact ⟨rfl, rfl⟩

/-! ### Runs of one character class -/

theorem spaces_iff {s v r : Str} :
    spaces s = .ok v r ↔ s = v ++ r ∧ v ≠ [] ∧ (∀ c ∈ v, c = ' ') ∧ Next (· ≠ ' ') r := by
  unfold spaces
  rw [takeWhile1_iff]
  simp only [NotStart, Next, beq_iff_eq, beq_eq_false_iff_ne]

theorem spaces_err {s : Str} : spaces s = .err ↔ Next (· ≠ ' ') s := by
  unfold spaces
  rw [takeWhile1_err]
  simp only [NotStart, Next, beq_eq_false_iff_ne]

theorem multispace_iff {s v r : Str} :
    multispace s = .ok v r ↔ s = v ++ r ∧ v ≠ [] ∧ (∀ c ∈ v, White c) ∧
      Next (fun c => ¬ White c) r := by
  unfold multispace
  rw [takeWhile1_iff, notStart_iff (fun c => isMultispace_iff)]
  simp only [isMultispace_iff]

theorem multispace0_iff {s v r : Str} :
    multispace0 s = .ok v r ↔ s = v ++ r ∧ (∀ c ∈ v, White c) ∧ Next (fun c => ¬ White c) r := by
  unfold multispace0
  rw [takeWhile0_iff, notStart_iff (fun c => isMultispace_iff)]
  simp only [isMultispace_iff]

theorem digit_iff {s v r : Str} :
    digit s = .ok v r ↔ s = v ++ r ∧ Digits v ∧ Next (fun c => ¬ Digit c) r := by
  unfold digit Digits
  rw [takeWhile1_iff, notStart_iff (fun c => isDigit_iff)]
  simp only [isDigit_iff, and_assoc]

theorem sign_iff {s v r : Str} :
    sign s = .ok v r ↔ s = v ++ r ∧ (v = ['+'] ∨ v = ['-'] ∨
      (v = [] ∧ Next (fun c => c ≠ '+' ∧ c ≠ '-') s)) := by
  unfold sign
  simp only [pmap_eq_ok, opt_eq_ok, alt_eq_ok, char_eq_ok]
  cases s with
  | nil => simp [alt_apply, next_nil]; grind
  | cons c s =>
    by_cases h1 : c = '+'
    · subst h1; simp [alt_apply, next_cons]; grind
    · by_cases h2 : c = '-'
      · subst h2; simp [alt_apply, next_cons, char]; grind
      · simp [alt_apply, next_cons, char, h1, h2]; grind

/-! ### Dotted names -/

theorem dotUp_iff {s r : Str} {n : Name} :
    preceded (char '.') upName s = .ok n r ↔
      s = '.' :: n ++ r ∧ UpName n ∧ Next (fun c => ¬ IdentChar c) r := by
  simp only [preceded_eq_ok, char_eq_ok, upName_iff]
  constructor
  · rintro ⟨v, r1, ⟨rfl, rfl⟩, rfl, h1, h2⟩; exact ⟨rfl, h1, h2⟩
  · rintro ⟨rfl, h1, h2⟩; exact ⟨'.', n ++ r, ⟨rfl, rfl⟩, rfl, h1, h2⟩

theorem upName_err {s : Str} : upName s = .err ↔ Next (fun c => ¬ Upper c) s := by
  unfold upName
  rw [reMatches_index', ← notStart_iff (fun c => @isUpper_iff c), ← reHeadTail_none (t := isIdent)]
  cases reHeadTail isUpper isIdent s <;> simp

theorem dotUp_err {s : Str} :
    preceded (char '.') upName s = .err ↔ ∀ c t, s = '.' :: c :: t → ¬ Upper c := by
  rw [preceded_apply]
  cases s with
  | nil => simp
  | cons d s =>
    by_cases h : d = '.'
    · subst h
      rw [char_cons, andThen_ok, upName_err]
      simp only [Next, List.cons.injEq, true_and]
    · rw [char_cons_ne _ h]
      simp [h]

theorem upName_ne_nil {n : Name} (h : UpName n) : n ≠ [] := by
  obtain ⟨c, cs, rfl, -⟩ := h; simp

theorem dotted_cons_cons (n m : Name) (ns : List Name) :
    dotted (n :: m :: ns) = n ++ '.' :: dotted (m :: ns) := rfl

theorem not_ident_dot : ¬ IdentChar '.' := by
  unfold IdentChar Lower Upper Digit; decide

/-- `ns` all preceded by a dot. -/
theorem run_dotUp {s r : Str} {ns : List Name} :
    Run (preceded (char '.') upName) s ns r ↔
      s = (ns.map fun n => '.' :: n).flatten ++ r ∧ (∀ n ∈ ns, UpName n) ∧
        (ns ≠ [] → Next (fun c => ¬ IdentChar c) r) := by
  induction ns generalizing s with
  | nil =>
    constructor
    · intro h; cases h; simp
    · rintro ⟨rfl, -⟩; exact .nil _
  | cons n ns ih =>
    constructor
    · intro h
      cases h with
      | cons h1 h2 h3 =>
        obtain ⟨rfl, hn, hr⟩ := dotUp_iff.1 h1
        obtain ⟨rfl, hns, hr'⟩ := ih.1 h3
        refine ⟨by simp, by simpa using ⟨hn, hns⟩, fun _ => ?_⟩
        cases ns with
        | nil => simpa using hr
        | cons m ms => exact hr' (by simp)
    · rintro ⟨rfl, hns, hr⟩
      simp only [List.mem_cons, forall_eq_or_imp] at hns
      refine .cons (r := (ns.map fun n => '.' :: n).flatten ++ r) (dotUp_iff.2 ⟨by simp, hns.1, ?_⟩)
        (by simp; omega) (ih.2 ⟨rfl, hns.2, fun h => hr (by simp)⟩)
      cases ns with
      | nil => simpa using hr (by simp)
      | cons m ms => simpa [next_cons] using not_ident_dot

theorem dotted_eq (n : Name) (ns : List Name) :
    dotted (n :: ns) = n ++ (ns.map fun n => '.' :: n).flatten := by
  induction ns generalizing n with
  | nil => simp [dotted]
  | cons m ns ih => rw [dotted_cons_cons, ih]; simp

/-- C06 -/
theorem moduleName_iff {s r : Str} {ns : List Name} :
    moduleName s = .ok ns r ↔ s = dotted ns ++ r ∧ ns ≠ [] ∧ (∀ n ∈ ns, UpName n) ∧
      Next (fun c => ¬ IdentChar c) r ∧ (∀ c t, r = '.' :: c :: t → ¬ Upper c) := by
  unfold moduleName
  rw [sepNonemptyList_iff (fun k => cons_char k _) cons_upName]
  constructor
  · rintro ⟨v, vs, r1, rfl, h1, h2, h3⟩
    obtain ⟨rfl, hv, hr1⟩ := upName_iff.1 h1
    obtain ⟨rfl, hvs, hr⟩ := run_dotUp.1 h2
    refine ⟨by rw [dotted_eq]; simp, by simp, by simpa using ⟨hv, hvs⟩, ?_, dotUp_err.1 h3⟩
    cases vs with
    | nil => simpa using hr1
    | cons m ms => exact hr (by simp)
  · rintro ⟨rfl, hne, hns, hr, hd⟩
    cases ns with
    | nil => exact absurd rfl hne
    | cons n ns =>
      simp only [List.mem_cons, forall_eq_or_imp] at hns
      refine ⟨n, ns, (ns.map fun n => '.' :: n).flatten ++ r, rfl, upName_iff.2
        ⟨by rw [dotted_eq]; simp, hns.1, ?_⟩, run_dotUp.2 ⟨rfl, hns.2, fun _ => hr⟩,
        dotUp_err.2 hd⟩
      cases ns with
      | nil => simpa using hr
      | cons m ms => simpa [next_cons] using not_ident_dot

/-! ### Numbers, characters, strings -/

theorem integer_iff {s r : Str} {e : Expr} :
    integer s = .ok e r ↔ ∃ w, e = .Integer w ∧ s = w ++ r ∧ IntText w ∧
      Next (fun c => ¬ Digit c) r := by
  unfold integer
  simp only [bind_eq_ok, pure_eq_ok, sign_iff, digit_iff]
  constructor
  · rintro ⟨sg, r1, ⟨rfl, hsg⟩, d, r2, ⟨rfl, hd, hr⟩, rfl, rfl⟩
    refine ⟨sg ++ d, rfl, by simp, ⟨sg, d, rfl, ?_, hd⟩, hr⟩
    unfold Sign; grind
  · rintro ⟨w, rfl, rfl, ⟨sg, d, rfl, hsg, hd⟩, hr⟩
    refine ⟨sg, d ++ r, ⟨by simp, ?_⟩, d, r, ⟨rfl, hd, hr⟩, rfl, rfl⟩
    rcases hsg with rfl | rfl | rfl
    · right; right
      refine ⟨rfl, ?_⟩
      obtain ⟨h1, h2⟩ := hd
      cases d with
      | nil => exact absurd rfl h1
      | cons c d =>
        simp only [List.nil_append, List.cons_append, next_cons]
        have := h2 c (by simp)
        constructor <;> rintro rfl <;> revert this <;> unfold Digit <;> decide
    · simp
    · simp

theorem float_iff {s r : Str} {e : Expr} :
    float s = .ok e r ↔ ∃ w, e = .Float w ∧ s = w ++ r ∧ FloatText w ∧
      Next (fun c => ¬ Digit c) r := by
  unfold float
  simp only [bind_eq_ok, pure_eq_ok, sign_iff, digit_iff, char_eq_ok]
  constructor
  · rintro ⟨sg, r1, ⟨rfl, hsg⟩, d, r2, ⟨rfl, hd, hr⟩, c, r3, ⟨rfl, rfl⟩, d', r4, ⟨rfl, hd', hr'⟩, rfl, rfl⟩
    refine ⟨sg ++ d ++ '.' :: d', by simp, by simp, ⟨sg, d, d', rfl, ?_, hd, hd'⟩, hr'⟩
    unfold Sign; grind
  · rintro ⟨w, rfl, rfl, ⟨sg, d, d', rfl, hsg, hd, hd'⟩, hr⟩
    refine ⟨sg, d ++ '.' :: d' ++ r, ⟨by simp, ?_⟩, d, '.' :: d' ++ r, ⟨by simp, hd, ?_⟩, '.', d' ++ r,
      ⟨rfl, by simp⟩, d', r, ⟨rfl, hd', hr⟩, by simp, rfl⟩
    · rcases hsg with rfl | rfl | rfl
      · right; right
        refine ⟨rfl, ?_⟩
        obtain ⟨h1, h2⟩ := hd
        cases d with
        | nil => exact absurd rfl h1
        | cons c d =>
          simp only [List.nil_append, List.cons_append, next_cons]
          have := h2 c (by simp)
          constructor <;> rintro rfl <;> revert this <;> unfold Digit <;> decide
      · simp
      · simp
    · simp only [List.cons_append, next_cons]
      unfold Digit; decide

theorem stringBody_append_quote {m : Str} (h : StringText m) (r : Str) :
    stringBody (m ++ '"' :: r) = (m, '"' :: r) := by
  induction h with
  | nil => cases r <;> simp [stringBody]
  | @plain c s h1 h2 h3 _ ih =>
    cases s with
    | nil => simp [stringBody, h1, h2, h3] at ih ⊢; rw [ih]; simp
    | cons d s => simp [stringBody, h1, h2, h3] at ih ⊢; rw [ih]; simp
  | @escape c s h1 hs ih =>
    by_cases hc : c = '\\' ∨ c = '"'
    · simp [stringBody, hc, ih]
    · have hc1 : c ≠ '\\' := fun h => hc (.inl h)
      have hc2 : c ≠ '"' := fun h => hc (.inr h)
      cases s with
      | nil => simp [stringBody, hc1, hc2, h1] at ih ⊢; rw [ih]; simp
      | cons d s => simp [stringBody, hc1, hc2, h1] at ih ⊢; rw [ih]; simp

theorem stringText_of_body {s m r : Str} (h : stringBody s = (m, '"' :: r)) : StringText m := by
  fun_induction stringBody s generalizing m with
  | case1 => simp at h
  | case2 c d s hc x =>
    rename_i ih
    simp only [Prod.mk.injEq] at h
    obtain ⟨rfl, h2⟩ := h
    have := ih (m := x.1) (by rw [← h2])
    obtain ⟨rfl, rfl | rfl⟩ := hc
    · exact .escape (by decide) this
    · exact .escape (by decide) this
  | case3 c d s hc hc' x =>
    rename_i ih
    simp only [Prod.mk.injEq] at h
    obtain ⟨rfl, h2⟩ := h
    have hxx : stringBody (d :: s) = x := rfl
    have hx := ih (m := x.1) (by rw [← h2])
    by_cases hb : c = '\\'
    · subst hb
      have hd : d ≠ '\\' ∧ d ≠ '"' := by grind
      have hb := stringBody_append (d :: s)
      rw [hxx] at hb
      cases hx1 : x.1 with
      | nil =>
        rw [hx1, h2] at hb
        simp at hb
        exact absurd hb.1.symm hd.2
      | cons e m' =>
        rw [hx1] at hb hx
        simp only [List.cons_append, List.cons.injEq] at hb
        obtain ⟨rfl, -⟩ := hb
        cases hx with
        | plain _ _ h3 h4 => exact .escape h3 h4
        | escape => exact absurd rfl hd.1
    · exact .plain hc'.1 hb hc'.2 hx
  | case4 c d s hc hc' =>
    simp only [Prod.mk.injEq] at h
    obtain ⟨rfl, h2⟩ := h
    exact .nil
  | case5 c hc => simp at h
  | case6 c hc =>
    simp only [Prod.mk.injEq] at h
    obtain ⟨rfl, h2⟩ := h
    exact .nil

theorem singleString_iff {s m r : Str} :
    singleString s = .ok m r ↔ s = '"' :: m ++ '"' :: r ∧ StringText m := by
  unfold singleString
  simp only [bind_eq_ok, delimited_eq_ok, char_eq_ok, reMatches_eq_ok, index_eq_ok,
    Option.some.injEq]
  constructor
  · rintro ⟨v, r1, ⟨a, r2, r3, c, ⟨rfl, rfl⟩, ⟨w, h1, rfl⟩, rfl, rfl⟩, h2, rfl⟩
    simp only [List.getElem?_cons_zero, Option.some.injEq] at h2
    subst h2
    have := stringBody_append r2
    rw [h1] at this
    simp only at this
    exact ⟨by simp [← this], stringText_of_body h1⟩
  · rintro ⟨rfl, h⟩
    exact ⟨[m], r, ⟨'"', m ++ '"' :: r, '"' :: r, '"', ⟨rfl, by simp⟩,
      ⟨m, stringBody_append_quote h r, rfl⟩, rfl, rfl⟩, rfl, rfl⟩

theorem multiString_iff {s m r : Str} :
    multiString s = .ok m r ↔ s = c!"\"\"\"" ++ m ++ c!"\"\"\"" ++ r ∧ '"' ∉ m := by
  unfold multiString
  simp only [bind_eq_ok, delimited_eq_ok, tag_eq_ok, reMatches_eq_ok, index_eq_ok,
    reStar, Option.some.injEq, Prod.mk.injEq]
  constructor
  · rintro ⟨v, r1, ⟨a, r2, r3, c, ⟨rfl, rfl⟩, ⟨w, h1, rfl⟩, rfl, rfl⟩, h2, rfl⟩
    simp only [List.getElem?_cons_zero, Option.some.injEq] at h2
    subst h2
    obtain ⟨h3, h4, -⟩ := span_iff.1 ⟨h1.1.symm, h1.2.symm⟩
    refine ⟨by rw [h3]; simp, fun h => ?_⟩
    have := h4 _ h
    simp at this
  · rintro ⟨rfl, h⟩
    refine ⟨[m], r, ⟨_, m ++ c!"\"\"\"" ++ r, c!"\"\"\"" ++ r, _, ⟨rfl, by simp⟩,
      ⟨m, ?_, rfl⟩, rfl, rfl⟩, rfl, rfl⟩
    have := (span_iff (f := fun c => c != '"') (v := m) (r := c!"\"\"\"" ++ r)
      (s := m ++ c!"\"\"\"" ++ r)).2 ⟨by simp, fun c hc => by
        simp only [bne_iff_ne, ne_eq]; rintro rfl; exact h hc, by simp [notStart_cons]⟩
    exact ⟨this.1.symm, this.2.symm⟩

theorem hexVal_iff {c : Char} {v : Nat} : hexVal c = some v ↔ HexDigit c v := by
  simp only [hexVal, HexDigit, char_le_iff, Digit]
  have e1 : '0'.toNat = 48 := rfl
  have e2 : '9'.toNat = 57 := rfl
  have e3 : 'a'.toNat = 97 := rfl
  have e4 : 'f'.toNat = 102 := rfl
  have e5 : 'A'.toNat = 65 := rfl
  have e6 : 'F'.toNat = 70 := rfl
  rw [e1, e2, e3, e4, e5, e6]
  split
  · simp only [Option.some.injEq]; omega
  · split
    · simp only [Option.some.injEq]; omega
    · split
      · simp only [Option.some.injEq]; omega
      · simp; omega

theorem fromHex_iff {a b : Char} {v : Nat} : fromHex [a, b] = some v ↔ HexCode a b v := by
  have hplus : ∀ x, ¬ HexDigit '+' x := by
    intro x
    simp only [HexDigit, Digit, show '+'.toNat = 43 from rfl]
    omega
  simp only [fromHex, HexCode]
  split
  · next h =>
    subst h
    rw [hexVal_iff]
    constructor
    · intro h; exact .inr ⟨rfl, h⟩
    · rintro (⟨x, y, h1, -⟩ | ⟨-, h⟩)
      · exact absurd h1 (hplus x)
      · exact h
  · next h =>
    simp only [← hexVal_iff]
    cases h1 : hexVal a <;> cases h2 : hexVal b <;> simp [h] <;> grind

theorem take2_iff {s v r : Str} : take 2 s = .ok v r ↔ ∃ a b, v = [a, b] ∧ s = a :: b :: r := by
  simp only [take]
  match s with
  | [] => simp
  | [_] => simp
  | a :: b :: s =>
    simp
    grind

theorem hexChar_iff {s r : Str} {c : Char} :
    hexChar s = .ok c r ↔
      ∃ a b v, s = '\\' :: 'x' :: a :: b :: r ∧ HexCode a b v ∧ c = Char.ofNat v := by
  unfold hexChar
  simp only [mapRes_eq_ok, preceded_eq_ok, pmap_eq_ok, tag_eq_ok, take2_iff]
  constructor
  · rintro ⟨o, ⟨w, r1, ⟨rfl, rfl⟩, w', ⟨a, b, rfl, rfl⟩, rfl⟩, h⟩
    rw [Option.map_eq_some_iff] at h
    obtain ⟨v, h1, h2⟩ := h
    exact ⟨a, b, v, rfl, fromHex_iff.1 h1, h2.symm⟩
  · rintro ⟨a, b, v, rfl, h1, rfl⟩
    exact ⟨_, ⟨_, _, ⟨rfl, rfl⟩, _, ⟨a, b, rfl, rfl⟩, rfl⟩, by rw [fromHex_iff.2 h1]; rfl⟩

theorem cons_hexChar (k : Nat) : Cons k hexChar := by
  cases k with
  | zero => intro s hs; omega
  | succ k => exact cons_mapRes (cons_preceded (cons_tag _ _ _) (good_pmap (good_take k _)))

theorem anychar_iff {s r : Str} {c : Char} : anychar s = .ok c r ↔ s = c :: r := by
  cases s <;> simp [anychar]

/-- C12 -/
theorem character_iff {s r : Str} {e : Expr} :
    character s = .ok e r ↔ ∃ w c, e = .Character c ∧ s = '\'' :: w ++ '\'' :: r ∧ CharText w c := by
  unfold character characterContent
  simp only [pmap_eq_ok, delimited_eq_ok, char_eq_ok, alt_eq_ok, anychar_iff, hexChar_iff]
  constructor
  · rintro ⟨c, ⟨q, r1, r2, q', ⟨rfl, rfl⟩, h | ⟨-, rfl⟩, rfl, rfl⟩, rfl⟩
    · obtain ⟨a, b, v, rfl, h1, rfl⟩ := h
      exact ⟨['\\', 'x', a, b], _, rfl, rfl, .inr ⟨a, b, v, rfl, h1, rfl⟩⟩
    · exact ⟨[c], c, rfl, rfl, .inl rfl⟩
  · rintro ⟨w, c, rfl, rfl, h⟩
    rcases h with rfl | ⟨a, b, v, rfl, h1, rfl⟩
    · refine ⟨c, ⟨_, _, _, _, ⟨rfl, rfl⟩, .inr ⟨?_, rfl⟩, rfl, rfl⟩, rfl⟩
      rcases err_or_ok cons_hexChar (c :: '\'' :: r) with h | ⟨d, r', h, -⟩
      · exact h
      · obtain ⟨a, b, v, h', -⟩ := hexChar_iff.1 h
        simp at h'
    · exact ⟨_, ⟨_, _, _, _, ⟨rfl, rfl⟩, .inl ⟨a, b, v, rfl, h1, rfl⟩, rfl, rfl⟩, rfl⟩

/-! ### Comments -/

theorem reLine_split (s : Str) : ∃ t r, s = t ++ r ∧ '\n' ∉ t ∧ Next (· = '\n') r ∧
    reLine s = some (t, r) := by
  obtain ⟨h1, h2, h3⟩ := (span_iff (s := s) (f := fun c => c != '\n')).1 ⟨rfl, rfl⟩
  refine ⟨_, _, h1, fun h => ?_, ?_, rfl⟩
  · have := h2 _ h; simp at this
  · intro c r e
    have := h3 c r e
    simpa using this

theorem reLine_iff {s t r : Str} :
    reLine s = some (t, r) ↔ s = t ++ r ∧ '\n' ∉ t ∧ Next (· = '\n') r := by
  simp only [reLine, reStar, Option.some.injEq, Prod.mk.injEq]
  have := span_iff (s := s) (f := fun c => c != '\n') (v := t) (r := r)
  rw [eq_comm, @eq_comm _ _ r, this]
  constructor
  · rintro ⟨h1, h2, h3⟩
    refine ⟨h1, fun h => ?_, fun c r e => ?_⟩
    · have := h2 _ h; simp at this
    · have := h3 c r e; simpa using this
  · rintro ⟨h1, h2, h3⟩
    refine ⟨h1, fun c hc => ?_, fun c r e => ?_⟩
    · simp only [bne_iff_ne]; rintro rfl; exact h2 hc
    · simpa using h3 c r e

theorem singleLineComment_iff {s t r : Str} :
    singleLineComment s = .ok t r ↔
      s = '-' :: '-' :: t ++ r ∧ '\n' ∉ t ∧ Next (· = '\n') r := by
  unfold singleLineComment
  simp only [bind_eq_ok, preceded_eq_ok, tag_eq_ok, reMatches_eq_ok, index_eq_ok]
  constructor
  · rintro ⟨v, r1, ⟨w, r2, ⟨rfl, rfl⟩, m, h1, rfl⟩, h2, rfl⟩
    simp only [List.getElem?_cons_zero, Option.some.injEq] at h2
    subst h2
    obtain ⟨rfl, h3⟩ := reLine_iff.1 h1
    exact ⟨rfl, h3⟩
  · rintro ⟨rfl, h⟩
    exact ⟨[t], r, ⟨_, t ++ r, ⟨rfl, rfl⟩, t, reLine_iff.2 ⟨rfl, h⟩, rfl⟩, rfl, rfl⟩

theorem singleLineComment_err {s : Str} :
    singleLineComment s = .err ↔ ∀ t, s ≠ '-' :: '-' :: t := by
  constructor
  · rintro h t rfl
    obtain ⟨a, b, rfl, h1, h2, -⟩ := reLine_split t
    rw [singleLineComment_iff.2 ⟨List.cons_append.symm ▸ rfl, h1, h2⟩] at h
    cases h
  · intro h
    rcases err_or_ok cons_singleLineComment s with e | ⟨v, r, e, -⟩
    · exact e
    · exact absurd (singleLineComment_iff.1 e).1 (h _)

theorem lineCommentStatement_iff {s r : Str} {x : Statement} :
    lineCommentStatement s = .ok x r ↔ ∃ t, x = .Comment t ∧
      s = '-' :: '-' :: t ++ r ∧ '\n' ∉ t ∧ Next (· = '\n') r := by
  have : lineCommentStatement = pmap singleLineComment .Comment := by
    funext s
    unfold lineCommentStatement singleLineComment
    prun
    cases (tag c!"--" s) with
    | ok v r => simp only [andThen_ok]; cases reMatches reLine r <;> simp; rename_i l _; cases l <;> rfl
    | err => rfl
    | panic => rfl
    | div => rfl
  rw [this]
  simp only [pmap_eq_ok, singleLineComment_iff]
  grind

/-- The text up to the first `t`. -/
theorem findSubstring_iff {t s a b : Str} :
    findSubstring t s = some (a, b) ↔
      s = a ++ t ++ b ∧ ∀ a' b', s = a' ++ t ++ b' → a.length ≤ a'.length := by
  induction s generalizing a b with
  | nil =>
    simp only [findSubstring]
    split
    · next r e =>
      rw [stripPrefix_eq_some] at e
      simp at e
      obtain ⟨rfl, rfl⟩ := e
      simp; grind
    · next e =>
      have : t ≠ [] := by rintro rfl; simp [stripPrefix] at e
      simp; grind
  | cons c s ih =>
    simp only [findSubstring]
    split
    · next r e =>
      rw [stripPrefix_eq_some] at e
      simp only [Option.some.injEq, Prod.mk.injEq]
      constructor
      · rintro ⟨rfl, rfl⟩; simp [e]
      · rintro ⟨h1, h2⟩
        have := h2 [] r (by simpa using e)
        have ha : a = [] := List.length_eq_zero_iff.1 (by simpa using this)
        subst ha
        rw [e] at h1
        simp at h1
        exact ⟨rfl, h1⟩
    · next e =>
      have hno : ∀ b', c :: s ≠ t ++ b' := by
        intro b' h
        rw [stripPrefix_eq_some.2 h] at e
        cases e
      split
      · next x y e' =>
        have hxy := (ih).1 e'
        simp only [Option.some.injEq, Prod.mk.injEq]
        constructor
        · rintro ⟨rfl, rfl⟩
          refine ⟨by simp [hxy.1], fun a' b' h => ?_⟩
          cases a' with
          | nil => exact absurd (by simpa using h) (hno b')
          | cons d a' =>
            simp only [List.cons_append, List.cons.injEq] at h
            have := hxy.2 a' b' (by simpa using h.2)
            simpa using this
        · rintro ⟨h1, h2⟩
          cases a with
          | nil => exact absurd (by simpa using h1) (hno b)
          | cons d a =>
            simp only [List.cons_append, List.cons.injEq] at h1
            have h3 := h2 (c :: x) y (by simp [hxy.1])
            have h4 := hxy.2 a b h1.2
            simp only [List.length_cons] at h3
            have hl : x.length = a.length := by omega
            have := hxy.1.symm.trans h1.2
            rw [List.append_assoc, List.append_assoc] at this
            obtain ⟨rfl, h5⟩ := List.append_inj this hl
            have h6 := List.append_cancel_left h5
            exact ⟨by rw [h1.1], h6⟩
      · next e' =>
        simp only [reduceCtorEq, false_iff]
        rintro ⟨h1, h2⟩
        cases a with
        | nil => exact absurd (by simpa using h1) (hno b)
        | cons d a =>
          simp only [List.cons_append, List.cons.injEq] at h1
          have := (ih (a := a) (b := b)).2 ⟨h1.2, fun a' b' h => by
            have := h2 (c :: a') b' (by simp [h])
            simpa using this⟩
          rw [e'] at this
          cases this

theorem multiLineComment_iff {s r : Str} {x : Statement} :
    multiLineComment s = .ok x r ↔ ∃ t, x = .Comment t ∧ s = c!"{-" ++ t ++ c!"-}" ++ r ∧
      ∀ a b, t ++ c!"-}" ++ r = a ++ c!"-}" ++ b → t.length ≤ a.length := by
  unfold multiLineComment takeUntilAndConsume
  simp only [pmap_eq_ok, preceded_eq_ok, tag_eq_ok]
  constructor
  · rintro ⟨t, ⟨w, r1, ⟨rfl, rfl⟩, h⟩, rfl⟩
    cases e : findSubstring c!"-}" r1 with
    | none => simp [e] at h
    | some y =>
      obtain ⟨a, b⟩ := y
      simp only [e, Res.ok.injEq] at h
      obtain ⟨rfl, rfl⟩ := h
      obtain ⟨rfl, h2⟩ := findSubstring_iff.1 e
      exact ⟨a, rfl, by simp, h2⟩
  · rintro ⟨t, rfl, rfl, h⟩
    refine ⟨t, ⟨_, t ++ c!"-}" ++ r, ⟨rfl, by simp⟩, ?_⟩, rfl⟩
    rw [(findSubstring_iff (a := t) (b := r)).2 ⟨rfl, h⟩]

end ElmParser
