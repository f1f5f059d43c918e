import Verif.Proofs.Total
import Verif.Proofs.Gap

/-! A simulation: on a text without line breaks, the parsers do not depend on the indentation. -/
namespace ElmParser
open Spec

namespace OneLine

variable {α β γ δ : Type}

/-- Two results with related values and the same rest, which has no line breaks. -/
inductive Same (R : α → β → Prop) : Res α → Res β → Prop
  | ok {v w r} : R v w → '\n' ∉ r → Same R (.ok v r) (.ok w r)
  | err : Same R .err .err
  | panic : Same R .panic .panic
  | div : Same R .div .div

/-- The parsers have related results on texts without line breaks. -/
def Sim (R : α → β → Prop) (p : Parser α) (q : Parser β) : Prop := ∀ s, '\n' ∉ s → Same R (p s) (q s)

/-- The values do not matter. -/
def Any : α → β → Prop := fun _ _ => True

theorem noNl_suffix {s r : Str} (h : '\n' ∉ s) (hr : r <:+ s) : '\n' ∉ r := fun h' => h (hr.mem h')

theorem Same.eq {x y : Res α} (h : Same Eq x y) : x = y := by
  cases h with
  | ok h => rw [h]
  | _ => rfl

theorem Sim.any {R : α → β → Prop} {p : Parser α} {q : Parser β} (h : Sim R p q) : Sim Any p q := fun s hs => by
  have := h s hs
  generalize p s = x, q s = y at *
  cases this with
  | ok _ h => exact .ok trivial h
  | err => exact .err
  | panic => exact .panic
  | div => exact .div

theorem refl {p : Parser α} (hp : ∀ k, Good k p) : Sim Eq p p := fun s hs => by
  rcases hp (s.length + 1) s (by omega) with h | ⟨v, r, h, hr⟩
  · rw [h]; exact .err
  · rw [h]; exact .ok rfl (noNl_suffix hs hr)

theorem pure {R : α → β → Prop} {v : α} {w : β} (h : R v w) : Sim R (Pure.pure v : Parser α) (Pure.pure w : Parser β) :=
  fun _ hs => .ok h hs
theorem fail {R : α → β → Prop} : Sim R (Parser.fail : Parser α) (Parser.fail : Parser β) := fun _ _ => .err

theorem bind {R : α → β → Prop} {S : γ → δ → Prop} {p : Parser α} {q : Parser β} {f : α → Parser γ} {g : β → Parser δ}
    (h : Sim R p q) (hf : ∀ v w, R v w → Sim S (f v) (g w)) : Sim S (p >>= f) (q >>= g) := fun s hs => by
  show Same S ((p s).andThen f) ((q s).andThen g)
  have := h s hs
  generalize p s = x, q s = y at *
  cases this with
  | ok h1 h2 => exact hf _ _ h1 _ h2
  | err => exact .err
  | panic => exact .panic
  | div => exact .div

theorem alt {R : α → β → Prop} {p p' : Parser α} {q q' : Parser β} (h : Sim R p q) (h' : Sim R p' q') :
    Sim R (p </> p') (q </> q') := fun s hs => by
  show Same R ((p s).orElse (p' s)) ((q s).orElse (q' s))
  have := h s hs
  generalize p s = x, q s = y at *
  cases this with
  | ok h1 h2 => exact .ok h1 h2
  | err => exact h' s hs
  | panic => exact .panic
  | div => exact .div

theorem pmap {p q : Parser α} {f : α → β} (h : Sim Eq p q) : Sim Eq (pmap p f) (pmap q f) :=
  bind h fun _ _ e => pure (by rw [e])
theorem opt {p q : Parser α} (h : Sim Eq p q) : Sim Eq (opt p) (opt q) := alt (pmap h) (pure rfl)
theorem optAny {p : Parser α} {q : Parser β} (h : Sim Any p q) : Sim Any (ElmParser.opt p) (ElmParser.opt q) :=
  alt (bind h fun _ _ _ => pure trivial) (pure trivial)
theorem preceded {p : Parser α} {p' : Parser β} {q q' : Parser γ} (h : Sim Any p p') (h' : Sim Eq q q') :
    Sim Eq (preceded p q) (preceded p' q') := bind h fun _ _ _ => h'
theorem precededAny {p : Parser α} {p' : Parser β} {q : Parser γ} {q' : Parser δ} (h : Sim Any p p') (h' : Sim Any q q') :
    Sim Any (ElmParser.preceded p q) (ElmParser.preceded p' q') := bind h fun _ _ _ => h'
theorem terminated {p : Parser α} {p' : Parser β} {q q' : Parser γ} (h' : Sim Eq q q') (h : Sim Any p p') :
    Sim Eq (terminated q p) (terminated q' p') := bind h' fun _ _ e => bind h fun _ _ _ => pure e
theorem terminatedAny {p : Parser α} {p' : Parser β} {q : Parser γ} {q' : Parser δ} (h' : Sim Any q q') (h : Sim Any p p') :
    Sim Any (ElmParser.terminated q p) (ElmParser.terminated q' p') :=
  bind h' fun _ _ _ => bind h fun _ _ _ => pure trivial
theorem delimited {α' γ' : Type} {p : Parser α} {p' : Parser α'} {q q' : Parser β} {t : Parser γ} {t' : Parser γ'}
    (h1 : Sim Any p p') (h2 : Sim Eq q q') (h3 : Sim Any t t') : Sim Eq (delimited p q t) (delimited p' q' t') :=
  bind h1 fun _ _ _ => bind h2 fun _ _ e => bind h3 fun _ _ _ => pure e
theorem delimitedAny {α' γ' : Type} {p : Parser α} {p' : Parser α'} {q q' : Parser β} {t : Parser γ} {t' : Parser γ'}
    (h1 : Sim Any p p') (h2 : Sim Any q q') (h3 : Sim Any t t') :
    Sim Any (ElmParser.delimited p q t) (ElmParser.delimited p' q' t') :=
  bind h1 fun _ _ _ => bind h2 fun _ _ _ => bind h3 fun _ _ _ => pure trivial

theorem many0Loop {p q : Parser α} (h : Sim Eq p q) (n : Nat) : Sim Eq (many0Loop p n) (many0Loop q n) := by
  induction n with
  | zero => exact fun _ _ => .div
  | succ n ih =>
    intro s hs
    simp only [ElmParser.many0Loop]
    have := h s hs
    generalize p s = x, q s = y at *
    cases this with
    | @ok v w r h1 h2 =>
      subst h1
      by_cases hr : r = s
      · simp only [hr, if_true]; exact .ok rfl hs
      · simp only [hr, if_false]
        have := ih r h2
        generalize ElmParser.many0Loop p n r = x, ElmParser.many0Loop q n r = y at *
        cases this with
        | ok h1 h2 => subst h1; exact .ok rfl h2
        | err => exact .err
        | panic => exact .panic
        | div => exact .div
    | err => exact .ok rfl hs
    | panic => exact .panic
    | div => exact .div

theorem many0 {p q : Parser α} (h : Sim Eq p q) : Sim Eq (many0 p) (many0 q) := fun s hs => many0Loop h _ s hs

theorem sepLoop {sep : Parser γ} {sep' : Parser δ} {p q : Parser α} (h' : Sim Any sep sep') (h : Sim Eq p q) (n : Nat) :
    Sim Eq (sepLoop sep p n) (sepLoop sep' q n) := by
  induction n with
  | zero => exact fun _ _ => .div
  | succ n ih =>
    intro s hs
    simp only [ElmParser.sepLoop]
    have := h' s hs
    generalize sep s = x, sep' s = y at *
    cases this with
    | @ok v w r h1 h2 =>
      by_cases hr : r.length = s.length
      · simp only [hr, if_true]; exact .ok rfl hs
      · simp only [hr, if_false]
        have := h r h2
        generalize p r = x, q r = y at *
        cases this with
        | @ok v w r' h1 h2 =>
          subst h1
          by_cases hr : r'.length = r.length
          · simp only [hr, if_true]; exact .ok rfl hs
          · simp only [hr, if_false]
            have := ih r' h2
            generalize ElmParser.sepLoop sep p n r' = x, ElmParser.sepLoop sep' q n r' = y at *
            cases this with
            | ok h1 h2 => subst h1; exact .ok rfl h2
            | err => exact .err
            | panic => exact .panic
            | div => exact .div
        | err => exact .ok rfl hs
        | panic => exact .panic
        | div => exact .div
    | err => exact .ok rfl hs
    | panic => exact .panic
    | div => exact .div

theorem sepTail {sep : Parser γ} {sep' : Parser δ} {p q : Parser α} (h' : Sim Any sep sep') (h : Sim Eq p q) (n : Nat)
    (v : α) {r : Str} (hr : '\n' ∉ r) :
    Same Eq ((ElmParser.sepLoop sep p n r).andThen fun vs r' => .ok (v :: vs) r')
      ((ElmParser.sepLoop sep' q n r).andThen fun vs r' => .ok (v :: vs) r') := by
  have := sepLoop h' h n r hr
  generalize ElmParser.sepLoop sep p n r = x, ElmParser.sepLoop sep' q n r = y at *
  cases this with
  | ok h1 h2 => subst h1; exact .ok rfl h2
  | err => exact .err
  | panic => exact .panic
  | div => exact .div

theorem sepList {sep : Parser γ} {sep' : Parser δ} {p q : Parser α} (h' : Sim Any sep sep') (h : Sim Eq p q) :
    Sim Eq (sepList sep p) (sepList sep' q) := fun s hs => by
  simp only [ElmParser.sepList]
  have := h s hs
  generalize p s = x, q s = y at *
  cases this with
  | @ok v w r h1 h2 =>
    subst h1
    by_cases hr : r.length = s.length
    · simp only [hr, if_true]; exact .err
    · simp only [hr, if_false]; exact sepTail h' h _ v h2
  | err => exact .ok rfl hs
  | panic => exact .panic
  | div => exact .div

theorem sepNonemptyList {sep : Parser γ} {sep' : Parser δ} {p q : Parser α} (h' : Sim Any sep sep') (h : Sim Eq p q) :
    Sim Eq (sepNonemptyList sep p) (sepNonemptyList sep' q) := fun s hs => by
  simp only [ElmParser.sepNonemptyList]
  have := h s hs
  generalize p s = x, q s = y at *
  cases this with
  | @ok v w r h1 h2 =>
    subst h1
    simp only [Res.andThen]
    by_cases hr : r.length = s.length
    · simp only [hr, if_true]; exact .err
    · simp only [hr, if_false]; exact sepTail h' h _ v h2
  | err => exact .err
  | panic => exact .panic
  | div => exact .div

/-! ### Gaps -/

theorem gap_transfer {i j v : Nat} {ir : IR} {s r : Str} (hs : '\n' ∉ s) (h : gap i ir s = .ok v r) :
    ∃ w, gap j ir s = .ok w r := by
  obtain ⟨ls, last, hg, h⟩ := gap_iff.1 h
  cases ls with
  | nil => exact ⟨_, gap_iff.2 ⟨[], last, hg, .inl ⟨rfl, rfl⟩⟩⟩
  | cons l ls =>
    refine absurd ?_ hs
    rw [hg.split]
    simp [gapText]

theorem gap (i j : Nat) (ir : IR) : Sim Any (gap i ir) (gap j ir) := fun s hs => by
  rcases cons_gap (s.length + 1) i ir s (by omega) with h | ⟨v, r, h, hr, -⟩
  · rcases cons_gap (s.length + 1) j ir s (by omega) with h' | ⟨v, r, h', hr, -⟩
    · rw [h, h']; exact .err
    · obtain ⟨w, h''⟩ := gap_transfer (j := i) hs h'
      rw [h] at h''; cases h''
  · obtain ⟨w, h'⟩ := gap_transfer (j := j) hs h
    rw [h, h']
    exact .ok trivial (noNl_suffix hs hr)

theorem oGap (i j : Nat) (ir : IR) : Sim Any (ElmParser.opt (ElmParser.gap i ir)) (ElmParser.opt (ElmParser.gap j ir)) :=
  optAny (gap i j ir)
theorem optGap (i j : Nat) (ir : IR) : Sim Any (optGap i ir) (optGap j ir) :=
  bind (oGap i j ir) fun _ _ _ => pure trivial

theorem newLineAndSameIndent (i j : Nat) : Sim Any (newLineAndSameIndent i) (newLineAndSameIndent j) := fun s hs => by
  have h : ∀ k, ElmParser.newLineAndSameIndent k s = .err := by
    intro k
    cases s with
    | nil => rfl
    | cons c s =>
      have : c ≠ '\n' := fun h => hs (by simp [h])
      show Res.andThen (Res.andThen (ElmParser.char '\n' (c :: s)) _) _ = _
      simp [ElmParser.char, this, Res.andThen]
  rw [h, h]
  exact .err

theorem char (c : Char) : Sim Any (ElmParser.char c) (ElmParser.char c) := (refl fun k => (cons_char k c).good).any
theorem tag (c : Char) (t : Str) : Sim Any (ElmParser.tag (c :: t)) (ElmParser.tag (c :: t)) :=
  (refl fun k => (cons_tag k c t).good).any
theorem commaSep (i j : Nat) : Sim Any (commaSep i) (commaSep j) := delimitedAny (oGap i j _) (char _) (oGap i j _)
theorem loName : Sim Eq ElmParser.loName ElmParser.loName := refl fun k => (cons_loName k).good
theorem index {v : List α} {n : Nat} : Sim Eq (index v n) (index v n) := fun s hs => by
  unfold ElmParser.index
  cases v[n]? with
  | none => exact .panic
  | some x => exact .ok rfl hs

/-! ### Types -/

section
variable {f g : TyRec} (h1 : ∀ i j, Sim Eq (f.type_ i) (g.type_ j)) (h2 : ∀ i j, Sim Eq (f.typeAnnotation i) (g.typeAnnotation j))
  (i j : Nat)
include h2

theorem typeRecordPairs : Sim Eq (typeRecordPairs f i) (typeRecordPairs g j) :=
  sepList (commaSep i j) <| bind loName fun _ _ e => bind (oGap i j _) fun _ _ _ => bind (char _) fun _ _ _ =>
    bind (oGap i j _) fun _ _ _ => bind (h2 i j) fun _ _ e' => pure (by rw [e, e'])

theorem typeRecordConstructor : Sim Eq (typeRecordConstructor f i) (typeRecordConstructor g j) :=
  delimited (char _) (bind (gap i j _) fun _ _ _ => bind (refl fun k => (cons_typeVariable k).good) fun _ _ e =>
    bind (gap i j _) fun _ _ _ => bind (char _) fun _ _ _ => bind (gap i j _) fun _ _ _ =>
    bind (typeRecordPairs h2 i j) fun _ _ e' => bind (gap i j _) fun _ _ _ => pure (by rw [e, e'])) (char _)

theorem typeRecord : Sim Eq (typeRecord f i) (typeRecord g j) :=
  delimited (precededAny (char _) (oGap i j _)) (pmap (typeRecordPairs h2 i j)) (terminatedAny (oGap i j _) (char _))

theorem typeParens : Sim Eq (typeParens f i) (typeParens g j) :=
  delimited (precededAny (char _) (oGap i j _)) (h2 i j) (terminatedAny (oGap i j _) (char _))

include h1

omit h2 in
theorem typeTuple : Sim Eq (typeTuple f i) (typeTuple g j) :=
  pmap (delimited (precededAny (char _) (oGap i j _)) (sepList (commaSep i j) (h1 i j))
    (terminatedAny (oGap i j _) (char _)))

theorem typeParameter : Sim Eq (typeParameter f i) (typeParameter g j) :=
  alt (refl fun k => (cons_typeVariable k).good) <| alt (refl fun k => (cons_typeConstant k).good) <|
  alt (typeRecordConstructor h2 i j) <| alt (typeRecord h2 i j) <| alt (typeTuple h1 i j) (typeParens h2 i j)

theorem typeConstructorF : Sim Eq (typeConstructorF f i) (typeConstructorF g j) :=
  bind (refl fun k => (cons_upDots k).good) fun _ _ e =>
    bind (many0 (bind (gap i j _) fun i j _ => typeParameter h1 h2 i j)) fun _ _ e' =>
      pure (by rw [e, e'])

theorem typeF : Sim Eq (typeF f i) (typeF g j) :=
  alt (typeConstructorF h1 h2 i j) <| alt (refl fun k => (cons_typeVariable k).good) <|
  alt (typeRecordConstructor h2 i j) <| alt (typeRecord h2 i j) <| alt (typeTuple h1 i j) (typeParens h2 i j)

theorem typeAnnotationF : Sim Eq (typeAnnotationF f i) (typeAnnotationF g j) := by
  refine bind (sepNonemptyList (refl fun k => (cons_arrowSep k).good).any (typeF h1 h2 i j)) ?_
  rintro v _ rfl
  by_cases k1 : v.isEmpty = true
  · simp only [k1, if_true]; exact fail
  · by_cases k2 : (v.length == 1) = true
    · simp only [k1, k2, if_true]; exact index
    · simp only [k1, k2]
      cases buildArrows v.reverse with
      | none => exact fail
      | some t => exact pure rfl
end

theorem tyN (n : Nat) : (∀ i j, Sim Eq ((tyN n).type_ i) ((tyN n).type_ j)) ∧
    ∀ i j, Sim Eq ((ElmParser.tyN n).typeAnnotation i) ((ElmParser.tyN n).typeAnnotation j) := by
  induction n with
  | zero => exact ⟨fun _ _ _ _ => .div, fun _ _ _ _ => .div⟩
  | succ n ih => exact ⟨fun i j => typeF ih.1 ih.2 i j, fun i j => typeAnnotationF ih.1 ih.2 i j⟩

theorem type_ (i j : Nat) : Sim Eq (type_ i) (type_ j) := fun s hs => by
  have := (tyN (s.length + 1)).1 i j s hs
  unfold ElmParser.type_ tyRec
  exact this
theorem typeAnnotation (i j : Nat) : Sim Eq (typeAnnotation i) (typeAnnotation j) := fun s hs => by
  have := (tyN (s.length + 1)).2 i j s hs
  unfold ElmParser.typeAnnotation tyRec
  exact this

/-! ### Expressions -/

section
variable {f g : ExprRec} (h : ∀ i j, Sim Eq (f i) (g j)) (i j : Nat)
include h

theorem tuple : Sim Eq (tuple f i) (tuple g j) :=
  have ms := (refl fun k => good_multispace0 k).any
  pmap (delimited (char _) (sepList (char _) (delimited ms (h i j) ms)) (char _))

theorem list : Sim Eq (list f i) (list g j) :=
  pmap (delimited (precededAny (char _) (oGap i j _)) (opt (sepList (commaSep i j) (h i j)))
    (terminatedAny (oGap i j _) (char _)))

theorem record : Sim Eq (record f i) (record g j) :=
  pmap (delimited (precededAny (char _) (oGap i j _)) (sepList (commaSep i j)
    (bind loName fun _ _ e => bind (delimitedAny (oGap i j _) (char _) (oGap i j _)) fun _ _ _ =>
      bind (h i j) fun _ _ e' => pure (by rw [e, e']))) (terminatedAny (oGap i j _) (char _)))

theorem recordUpdate : Sim Eq (recordUpdate f i) (recordUpdate g j) :=
  have ms := (refl fun k => good_multispace0 k).any
  delimited (precededAny (char _) (optGap i j _))
    (bind loName fun _ _ e => bind (optGap i j _) fun _ _ _ => bind (char _) fun _ _ _ => bind ms fun _ _ _ =>
      bind (sepList (delimitedAny (optGap i j _) (char _) (optGap i j _))
        (bind loName fun _ _ e => bind ms fun _ _ _ => bind (char _) fun _ _ _ => bind ms fun _ _ _ =>
          bind (h i j) fun _ _ e' => pure (by rw [e, e']))) fun _ _ e' => pure (by rw [e, e']))
    (terminatedAny (gap i j _) (char _))

theorem parens : Sim Eq (parens f i) (parens g j) := delimited (char _) (h i j) (char _)

theorem termF : Sim Eq (termF f i) (termF g j) :=
  alt (refl fun k => (cons_access k).good) <| alt (refl fun k => (cons_variableP k).good) <|
  alt (refl fun k => (cons_accessFunction k).good) <| alt (refl fun k => (cons_string k).good) <|
  alt (refl fun k => (cons_float k).good) <| alt (refl fun k => (cons_integer k).good) <|
  alt (refl fun k => (cons_character k).good) <| alt (parens h i j) <| alt (list h i j) <| alt (tuple h i j) <|
  alt (recordUpdate h i j) <| alt (record h i j) (refl fun k => (cons_simplifiedRecord k).good)

theorem lambda : Sim Eq (lambda f i) (lambda g j) :=
  bind (char _) fun _ _ _ => bind (sepNonemptyList (refl fun k => (cons_space1 k).good).any (termF h i j)) fun _ _ e =>
    bind (gap i j _) fun _ _ _ => bind (tag _ _) fun _ _ _ => bind (gap i j _) fun i j _ =>
    bind (h i j) fun _ _ e' => pure (by rw [e, e'])

theorem applicationOrVar : Sim Eq (applicationOrVar f i) (applicationOrVar g j) := by
  refine bind (sepList (gap i j _) (termF h i j)) ?_
  rintro v _ rfl
  by_cases k1 : v.isEmpty = true
  · simp only [k1, if_true]; exact fail
  · by_cases k2 : (v.length == 1) = true
    · simp only [k1, k2, if_true]; exact index
    · simp only [k1, k2]
      exact bind index fun _ _ e => bind index fun _ _ e' => pure (by rw [e, e'])

theorem functionDefinitionF : Sim Eq (functionDefinitionF f i) (functionDefinitionF g j) :=
  have sp := (refl fun k => (cons_spaces k).good).any
  bind (refl fun k => (cons_functionNameOrOp k).good) fun _ _ e => bind (many0 (preceded sp (termF h i j))) fun _ _ e' =>
    bind sp fun _ _ _ => bind (char _) fun _ _ _ => bind (gap i j _) fun i j _ =>
    bind (h i j) fun _ _ e'' => pure (by rw [e, e', e''])

omit h in
theorem functionSignature : Sim Eq (functionSignature i) (functionSignature j) :=
  bind (refl fun k => (cons_functionNameOrOp k).good) fun _ _ e =>
    bind (refl fun k => (cons_spaces k).good).any fun _ _ _ => bind (char _) fun _ _ _ => bind (gap i j _) fun i j _ =>
    bind (typeAnnotation i j) fun _ _ e' => pure (by rw [e, e'])

theorem functionF : Sim Eq (functionF f i) (functionF g j) :=
  bind (opt (terminated (functionSignature i j) (newLineAndSameIndent i j))) fun _ _ e =>
    bind (functionDefinitionF h i j) fun _ _ e' => pure (by rw [e, e'])

theorem letBindingTarget : Sim Eq (letBindingTarget f i) (letBindingTarget g j) :=
  alt (refl fun k => (cons_variableP k).good) <| alt (list h i j) <| alt (tuple h i j)
    (refl fun k => (cons_simplifiedRecord k).good)

theorem letEntry : Sim Eq (letEntry f i) (letEntry g j) :=
  alt (bind (letBindingTarget h i j) fun _ _ e => bind (gap i j _) fun _ _ _ => bind (char _) fun _ _ _ =>
    bind (gap i j _) fun i j _ => bind (h i j) fun _ _ e' => pure (by rw [e, e'])) (pmap (functionF h i j))

theorem letExpression : Sim Eq (letExpression f i) (letExpression g j) :=
  bind (tag _ _) fun _ _ _ => bind (gap i j _) fun i' j' _ =>
    bind (sepNonemptyList (gap i' j' _) (letEntry h i' j')) fun _ _ e => bind (gap i j _) fun _ _ _ =>
    bind (tag _ _) fun _ _ _ => bind (gap i j _) fun _ _ _ => bind (h i j) fun _ _ e' => pure (by rw [e, e'])

theorem caseBranch : Sim Eq (caseBranch f i) (caseBranch g j) :=
  bind (h i j) fun _ _ e => bind (gap i j _) fun _ _ _ => bind (tag _ _) fun _ _ _ => bind (gap i j _) fun i j _ =>
    bind (h i j) fun _ _ e' => pure (by rw [e, e'])

theorem caseExpression : Sim Eq (caseExpression f i) (caseExpression g j) :=
  bind (tag _ _) fun _ _ _ => bind (gap i j _) fun _ _ _ => bind (h i j) fun _ _ e => bind (gap i j _) fun _ _ _ =>
    bind (tag _ _) fun _ _ _ => bind (gap i j _) fun i j _ =>
    bind (sepNonemptyList (gap i j _) (caseBranch h i j)) fun _ _ e' => pure (by rw [e, e'])

theorem ifExpression : Sim Eq (ifExpression f i) (ifExpression g j) :=
  bind (tag _ _) fun _ _ _ => bind (gap i j _) fun _ _ _ => bind (h i j) fun _ _ e => bind (gap i j _) fun _ _ _ =>
    bind (tag _ _) fun _ _ _ => bind (gap i j _) fun i' j' _ => bind (h i' j') fun _ _ e' => bind (gap i j _) fun _ _ _ =>
    bind (tag _ _) fun _ _ _ => bind (gap i j _) fun i' j' _ => bind (h i' j') fun _ _ e'' => pure (by rw [e, e', e''])

theorem binary : Sim Eq (binary f i) (binary g j) :=
  bind (applicationOrVar h i j) fun _ _ e => bind (opt (bind (gap i j _) fun _ _ _ =>
    bind (refl fun k => (cons_operatorOrAs k).good) fun _ _ e => bind (refl fun k => (cons_multispace k).good).any
      fun _ _ _ => bind (h i j) fun _ _ e' => pure (by rw [e, e']))) fun _ _ e' => pure (by rw [e, e'])

theorem expressionF : Sim Eq (expressionF f i) (expressionF g j) :=
  alt (binary h i j) <| alt (letExpression h i j) <| alt (caseExpression h i j) <| alt (ifExpression h i j) (lambda h i j)
end

theorem exprN (n : Nat) : ∀ i j, Sim Eq (exprN n i) (exprN n j) := by
  induction n with
  | zero => exact fun _ _ _ _ => .div
  | succ n ih => exact fun i j => expressionF ih i j

theorem expression (i j : Nat) : Sim Eq (expression i) (expression j) := fun s hs => exprN (s.length + 1) i j s hs

end OneLine
end ElmParser
