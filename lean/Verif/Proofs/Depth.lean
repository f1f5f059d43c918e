import Verif.Proofs.Unfold

/-! How deep calls nest: a recursive call is only made after an *opener* — an opening bracket,
an operator character or one of four keywords — has been consumed. -/
namespace ElmParser

variable {α β γ : Type}

/-- A measure of texts that does not grow when characters are dropped from the front. -/
def Shrinks (w : Str → Nat) : Prop := ∀ ⦃r s : Str⦄, r <:+ s → w r ≤ w s

/-- On texts of measure below `k`, `p` does not run out of budget, and `Ok` leaves a suffix. -/
def Nd (w : Str → Nat) (k : Nat) (p : Parser α) : Prop :=
  ∀ s, w s < k → p s ≠ .div ∧ ∀ v r, p s = .ok v r → r <:+ s

/-- `p` leaves less, in the measure `w`, than it was given. -/
def Op (w : Str → Nat) (p : Parser α) : Prop := ∀ s v r, p s = .ok v r → w r < w s

section
variable {w : Str → Nat} {k : Nat}

theorem nd_good {p : Parser α} (h : ∀ j, Good j p) : Nd w k p := fun s _ => by
  rcases h (s.length + 1) s (Nat.lt_succ_self _) with e | ⟨v, r, e, e'⟩
  · rw [e]; exact ⟨by simp, fun _ _ h => by cases h⟩
  · rw [e]; exact ⟨by simp, fun _ _ h => by cases h; exact e'⟩

theorem Nd.mono {j : Nat} {p : Parser α} (h : Nd w k p) (hj : j ≤ k) : Nd w j p :=
  fun s hs => h s (by omega)

theorem nd_pure (v : α) : Nd w k (pure v : Parser α) := nd_good fun j => good_pure j v

theorem nd_bind (hw : Shrinks w) {p : Parser α} {f : α → Parser β} (hp : Nd w k p)
    (hf : ∀ v, Nd w k (f v)) : Nd w k (p >>= f) := fun s hs => by
  rw [bind_apply]
  obtain ⟨h1, h2⟩ := hp s hs
  cases h : p s with
  | ok v r =>
    have h3 := h2 v r h
    obtain ⟨g1, g2⟩ := hf v r (Nat.lt_of_le_of_lt (hw h3) hs)
    rw [andThen_ok]
    exact ⟨g1, fun u t e => (g2 u t e).trans h3⟩
  | err => exact ⟨by simp, fun _ _ h => by cases h⟩
  | panic => exact ⟨by simp, fun _ _ h => by cases h⟩
  | div => exact absurd h h1

/-- After an opener the budget may be one smaller. -/
theorem nd_open {p : Parser α} {f : α → Parser β} (hp : Nd w (k + 1) p) (ho : Op w p)
    (hf : ∀ v, Nd w k (f v)) : Nd w (k + 1) (p >>= f) := fun s hs => by
  rw [bind_apply]
  obtain ⟨h1, h2⟩ := hp s hs
  cases h : p s with
  | ok v r =>
    have h3 := h2 v r h
    have h4 := ho s v r h
    obtain ⟨g1, g2⟩ := hf v r (by omega)
    rw [andThen_ok]
    exact ⟨g1, fun u t e => (g2 u t e).trans h3⟩
  | err => exact ⟨by simp, fun _ _ h => by cases h⟩
  | panic => exact ⟨by simp, fun _ _ h => by cases h⟩
  | div => exact absurd h h1

theorem nd_alt {p q : Parser α} (hp : Nd w k p) (hq : Nd w k q) : Nd w k (p </> q) :=
  fun s hs => by
    rw [alt_apply]
    obtain ⟨h1, h2⟩ := hp s hs
    cases h : p s with
    | ok v r => exact ⟨by simp, fun _ _ e => by cases e; exact h2 v r h⟩
    | err => rw [orElse_err]; exact hq s hs
    | panic => exact ⟨by simp, fun _ _ h => by cases h⟩
    | div => exact absurd h h1

theorem nd_pmap (hw : Shrinks w) {p : Parser α} {f : α → β} (hp : Nd w k p) :
    Nd w k (pmap p f) := nd_bind hw hp fun _ => nd_pure _

theorem nd_opt (hw : Shrinks w) {p : Parser α} (hp : Nd w k p) : Nd w k (opt p) :=
  nd_alt (nd_pmap hw hp) (nd_pure _)

theorem nd_terminated (hw : Shrinks w) {p : Parser α} {q : Parser β} (hp : Nd w k p)
    (hq : Nd w k q) : Nd w k (terminated p q) :=
  nd_bind hw hp fun _ => nd_bind hw hq fun _ => nd_pure _

theorem nd_preceded (hw : Shrinks w) {p : Parser α} {q : Parser β} (hp : Nd w k p)
    (hq : Nd w k q) : Nd w k (preceded p q) := nd_bind hw hp fun _ => hq

theorem nd_delimited (hw : Shrinks w) {p : Parser α} {q : Parser β} {t : Parser γ}
    (hp : Nd w (k + 1) p) (ho : Op w p) (hq : Nd w k q) (ht : Nd w k t) :
    Nd w (k + 1) (delimited p q t) :=
  nd_open hp ho fun _ => nd_bind hw hq fun _ => nd_bind hw ht fun _ => nd_pure _

theorem op_bind (hw : Shrinks w) {p : Parser α} {f : α → Parser β} (ho : Op w p)
    (hf : ∀ v j, Good j (f v)) : Op w (p >>= f) := fun s v r h => by
  rw [bind_apply] at h
  cases e : p s with
  | ok u t =>
    rw [e, andThen_ok] at h
    have := ho s u t e
    rcases hf u (t.length + 1) t (Nat.lt_succ_self _) with g | ⟨v', r', g, g'⟩
    · rw [h] at g; cases g
    · rw [h] at g; cases g
      exact Nat.lt_of_le_of_lt (hw g') this
  | err => rw [e] at h; cases h
  | panic => rw [e] at h; cases h
  | div => rw [e] at h; cases h

theorem op_preceded (hw : Shrinks w) {p : Parser α} {q : Parser β} (ho : Op w p)
    (hq : ∀ j, Good j q) : Op w (preceded p q) := op_bind hw ho fun _ => hq

theorem nd_many0Loop (hw : Shrinks w) {p : Parser α} (hp : Nd w k p) (n : Nat) (s : Str)
    (hn : s.length < n) (hs : w s < k) :
    many0Loop p n s ≠ .div ∧ ∀ v r, many0Loop p n s = .ok v r → r <:+ s := by
  induction n generalizing s with
  | zero => omega
  | succ n ih =>
    simp only [many0Loop]
    obtain ⟨h1, h2⟩ := hp s hs
    cases h : p s with
    | err => exact ⟨by simp, fun _ _ h => by cases h; exact List.suffix_refl s⟩
    | panic => exact ⟨by simp, fun _ _ h => by cases h⟩
    | div => exact absurd h h1
    | ok v r =>
      have h' := h2 v r h
      simp only
      split
      · exact ⟨by simp, fun _ _ h => by cases h; exact List.suffix_refl s⟩
      · next hne =>
        have l1 := h'.length_le
        have l2 : r.length ≠ s.length := fun e => hne (h'.eq_of_length e)
        obtain ⟨g1, g2⟩ := ih r (by omega) (Nat.lt_of_le_of_lt (hw h') hs)
        cases e : many0Loop p n r with
        | ok vs r' => exact ⟨by simp, fun _ _ h => by cases h; exact (g2 vs r' e).trans h'⟩
        | err => exact ⟨by simp, fun _ _ h => by cases h⟩
        | panic => exact ⟨by simp, fun _ _ h => by cases h⟩
        | div => exact absurd e g1

theorem nd_many0 (hw : Shrinks w) {p : Parser α} (hp : Nd w k p) : Nd w k (many0 p) :=
  fun s hs => nd_many0Loop hw hp (s.length + 1) s (by omega) hs

theorem nd_sepLoop (hw : Shrinks w) {sep : Parser β} {p : Parser α} (hsep : ∀ j, Good j sep)
    (hp : Nd w k p) (n : Nat) (s : Str) (hn : s.length < n) (hs : w s < k) :
    sepLoop sep p n s ≠ .div ∧ ∀ v r, sepLoop sep p n s = .ok v r → r <:+ s := by
  induction n generalizing s with
  | zero => omega
  | succ n ih =>
    simp only [sepLoop]
    rcases hsep (s.length + 1) s (Nat.lt_succ_self _) with e | ⟨u, s2, e, e'⟩
    · rw [e]; exact ⟨by simp, fun _ _ h => by cases h; exact List.suffix_refl s⟩
    · simp only [e]
      have l1 := e'.length_le
      split
      · exact ⟨by simp, fun _ _ h => by cases h; exact List.suffix_refl s⟩
      · have hs2 := Nat.lt_of_le_of_lt (hw e') hs
        obtain ⟨h1, h2⟩ := hp s2 hs2
        cases h : p s2 with
        | err => exact ⟨by simp, fun _ _ h => by cases h; exact List.suffix_refl s⟩
        | panic => exact ⟨by simp, fun _ _ h => by cases h⟩
        | div => exact absurd h h1
        | ok v r =>
          have h' := h2 v r h
          have l2 := h'.length_le
          simp only
          split
          · exact ⟨by simp, fun _ _ h => by cases h; exact List.suffix_refl s⟩
          · obtain ⟨g1, g2⟩ := ih r (by omega) (Nat.lt_of_le_of_lt (hw h') hs2)
            cases e2 : sepLoop sep p n r with
            | ok vs r' =>
              exact ⟨by simp, fun _ _ h => by cases h; exact ((g2 vs r' e2).trans h').trans e'⟩
            | err => exact ⟨by simp, fun _ _ h => by cases h⟩
            | panic => exact ⟨by simp, fun _ _ h => by cases h⟩
            | div => exact absurd e2 g1

theorem nd_sepNonemptyList (hw : Shrinks w) {sep : Parser β} {p : Parser α}
    (hsep : ∀ j, Good j sep) (hp : Nd w k p) : Nd w k (sepNonemptyList sep p) := fun s hs => by
  simp only [sepNonemptyList]
  obtain ⟨h1, h2⟩ := hp s hs
  cases h : p s with
  | err => exact ⟨by simp, fun _ _ h => by cases h⟩
  | panic => exact ⟨by simp, fun _ _ h => by cases h⟩
  | div => exact absurd h h1
  | ok v r =>
    have h' := h2 v r h
    simp only [andThen_ok]
    split
    · exact ⟨by simp, fun _ _ h => by cases h⟩
    · obtain ⟨g1, g2⟩ := nd_sepLoop hw hsep hp (r.length + 1) r (by omega)
        (Nat.lt_of_le_of_lt (hw h') hs)
      cases e2 : sepLoop sep p (r.length + 1) r with
      | ok vs r' => exact ⟨by simp, fun _ _ h => by cases h; exact (g2 vs r' e2).trans h'⟩
      | err => exact ⟨by simp, fun _ _ h => by cases h⟩
      | panic => exact ⟨by simp, fun _ _ h => by cases h⟩
      | div => exact absurd e2 g1

theorem nd_sepList (hw : Shrinks w) {sep : Parser β} {p : Parser α}
    (hsep : ∀ j, Good j sep) (hp : Nd w k p) : Nd w k (sepList sep p) := fun s hs => by
  simp only [sepList]
  obtain ⟨h1, h2⟩ := hp s hs
  cases h : p s with
  | err => exact ⟨by simp, fun _ _ h => by cases h; exact List.suffix_refl s⟩
  | panic => exact ⟨by simp, fun _ _ h => by cases h⟩
  | div => exact absurd h h1
  | ok v r =>
    have h' := h2 v r h
    simp only
    split
    · exact ⟨by simp, fun _ _ h => by cases h⟩
    · obtain ⟨g1, g2⟩ := nd_sepLoop hw hsep hp (r.length + 1) r (by omega)
        (Nat.lt_of_le_of_lt (hw h') hs)
      cases e2 : sepLoop sep p (r.length + 1) r with
      | ok vs r' => exact ⟨by simp, fun _ _ h => by cases h; exact (g2 vs r' e2).trans h'⟩
      | err => exact ⟨by simp, fun _ _ h => by cases h⟩
      | panic => exact ⟨by simp, fun _ _ h => by cases h⟩
      | div => exact absurd e2 g1
end

/-! ### Types: every nested call follows an opening bracket -/

/-- The number of opening brackets `(` and `{`. -/
def tyOpeners (s : Str) : Nat := s.countP (fun c => c == '(' || c == '{')

theorem tyOpeners_shrinks : Shrinks tyOpeners := fun _ _ h => h.sublist.countP_le

theorem op_char_ty {c : Char} (hc : (c == '(' || c == '{') = true) : Op tyOpeners (char c) :=
  fun s v r h => by
    cases s with
    | nil => simp at h
    | cons d s =>
      by_cases e : d = c
      · subst e
        rw [char_cons] at h
        cases h
        unfold tyOpeners
        rw [List.countP_cons_of_pos (p := fun c => c == '(' || c == '{') hc]
        omega
      · rw [char_cons_ne s e] at h; cases h

structure NdRec (k : Nat) (R : TyRec) : Prop where
  ty : ∀ ind, Nd tyOpeners k (R.type_ ind)
  ann : ∀ ind, Nd tyOpeners k (R.typeAnnotation ind)

section
variable {k : Nat} {R : TyRec} (h : NdRec k R) (ind : Nat)

theorem gd_gap (ind : Nat) (ir : IR) : ∀ j, Good j (gap ind ir) := fun j => (cons_gap j ind ir).good
theorem gd_oGap (ind : Nat) (ir : IR) : ∀ j, Good j (opt (gap ind ir)) := fun j => good_oGap j ind ir
theorem gd_char (c : Char) : ∀ j, Good j (char c) := fun j => (cons_char j c).good
theorem gd_lo : ∀ j, Good j loName := fun j => (cons_loName j).good
theorem gd_closer (ind : Nat) (c : Char) :
    ∀ j, Good j (terminated (opt (gap ind .GTE)) (char c)) :=
  fun j => good_terminated (good_oGap j ind _) (cons_char j c).good

include h

theorem nd_typeTuple : Nd tyOpeners (k + 1) (typeTuple R ind) :=
  nd_pmap tyOpeners_shrinks <| nd_delimited tyOpeners_shrinks
    (nd_good fun j => good_preceded (gd_char _ j) (gd_oGap _ _ j))
    (op_preceded tyOpeners_shrinks (op_char_ty rfl) (gd_oGap _ _))
    (nd_sepList tyOpeners_shrinks (fun j => (cons_commaSep j ind).good) (h.ty ind))
    (nd_good (gd_closer ind ')'))

theorem nd_typeRecordPairs : Nd tyOpeners k (typeRecordPairs R ind) :=
  nd_sepList tyOpeners_shrinks (fun j => (cons_commaSep j ind).good)
    (nd_bind tyOpeners_shrinks (nd_good gd_lo) fun _ =>
      nd_bind tyOpeners_shrinks (nd_good (gd_oGap _ _)) fun _ =>
      nd_bind tyOpeners_shrinks (nd_good (gd_char _)) fun _ =>
      nd_bind tyOpeners_shrinks (nd_good (gd_oGap _ _)) fun _ =>
      nd_bind tyOpeners_shrinks (h.ann ind) fun _ => nd_pure _)

theorem nd_typeRecordConstructor : Nd tyOpeners (k + 1) (typeRecordConstructor R ind) :=
  nd_delimited tyOpeners_shrinks (nd_good (gd_char _)) (op_char_ty rfl)
    (nd_bind tyOpeners_shrinks (nd_good (gd_gap _ _)) fun _ =>
      nd_bind tyOpeners_shrinks (nd_good fun j => (cons_typeVariable j).good) fun _ =>
      nd_bind tyOpeners_shrinks (nd_good (gd_gap _ _)) fun _ =>
      nd_bind tyOpeners_shrinks (nd_good (gd_char _)) fun _ =>
      nd_bind tyOpeners_shrinks (nd_good (gd_gap _ _)) fun _ =>
      nd_bind tyOpeners_shrinks (nd_typeRecordPairs h ind) fun _ =>
      nd_bind tyOpeners_shrinks (nd_good (gd_gap _ _)) fun _ => nd_pure _)
    (nd_good (gd_char _))

theorem nd_typeRecord : Nd tyOpeners (k + 1) (typeRecord R ind) :=
  nd_delimited tyOpeners_shrinks
    (nd_good fun j => good_preceded (gd_char _ j) (gd_oGap _ _ j))
    (op_preceded tyOpeners_shrinks (op_char_ty rfl) (gd_oGap _ _))
    (nd_pmap tyOpeners_shrinks (nd_typeRecordPairs h ind))
    (nd_good (gd_closer ind '}'))

theorem nd_typeParens : Nd tyOpeners (k + 1) (typeParens R ind) :=
  nd_delimited tyOpeners_shrinks
    (nd_good fun j => good_preceded (gd_char _ j) (gd_oGap _ _ j))
    (op_preceded tyOpeners_shrinks (op_char_ty rfl) (gd_oGap _ _))
    (h.ann ind)
    (nd_good (gd_closer ind ')'))

theorem nd_typeConstructorF : Nd tyOpeners (k + 1) (typeConstructorF R ind) :=
  nd_bind tyOpeners_shrinks (nd_good fun j => (cons_upDots j).good) fun _ =>
    nd_bind tyOpeners_shrinks
      (nd_many0 tyOpeners_shrinks <|
        nd_bind tyOpeners_shrinks (nd_good (gd_gap _ _)) fun i =>
        nd_alt (nd_good fun j => (cons_typeVariable j).good) <|
        nd_alt (nd_good fun j => (cons_typeConstant j).good) <|
        nd_alt (nd_typeRecordConstructor h i) <| nd_alt (nd_typeRecord h i) <|
        nd_alt (nd_typeTuple h i) (nd_typeParens h i))
      fun _ => nd_pure _

theorem nd_typeF : Nd tyOpeners (k + 1) (typeF R ind) :=
  nd_alt (nd_typeConstructorF h ind) <|
  nd_alt (nd_good fun j => (cons_typeVariable j).good) <|
  nd_alt (nd_typeRecordConstructor h ind) <| nd_alt (nd_typeRecord h ind) <|
  nd_alt (nd_typeTuple h ind) (nd_typeParens h ind)

theorem nd_typeAnnotationF : Nd tyOpeners (k + 1) (typeAnnotationF R ind) :=
  nd_bind tyOpeners_shrinks (nd_sepNonemptyList tyOpeners_shrinks
    (fun j => (cons_arrowSep j).good) (nd_typeF h ind)) fun v => nd_good fun k => by
      match v with
      | [] => exact (cons_fail k).good
      | [a] => exact good_index0 k a
      | a :: b :: v =>
        simp only [List.isEmpty_cons, Bool.false_eq_true, if_false, List.length_cons]
        rw [if_neg (by simp)]
        cases buildArrows (a :: b :: v).reverse with
        | none => exact (cons_fail k).good
        | some w => exact good_pure _ _
end

theorem ndRec_tyN (n : Nat) : NdRec n (tyN n) := by
  induction n with
  | zero => exact ⟨fun _ s hs => by omega, fun _ s hs => by omega⟩
  | succ n ih => exact ⟨fun i => nd_typeF ih i, fun i => nd_typeAnnotationF ih i⟩

/-! ### Expressions: every nested call follows an opener -/

/-- A text that starts with an opening bracket, a character of an operator (the backslash of a
lambda and the `=` of a definition are among them), or one of the keywords `let`, `case`, `if`
and `as`. -/
def atOpener (t : Str) : Bool :=
  (match t with
    | c :: _ => c == '(' || c == '[' || c == '{' || isOpChar c
    | [] => false)
  || c!"let".isPrefixOf t || c!"case".isPrefixOf t || c!"if".isPrefixOf t || c!"as".isPrefixOf t

/-- The number of positions of a text at which an opener starts. -/
def openers : Str → Nat
  | [] => 0
  | c :: t => (if atOpener (c :: t) then 1 else 0) + openers t

theorem openers_append (a b : Str) : openers b ≤ openers (a ++ b) := by
  induction a with
  | nil => exact Nat.le_refl _
  | cons c a ih => exact Nat.le_trans ih (Nat.le_add_left _ _)

theorem openers_shrinks : Shrinks openers := by
  rintro r s ⟨a, rfl⟩
  exact openers_append a r

theorem openers_cons {c : Char} {t : Str} (h : atOpener (c :: t) = true) :
    openers t < openers (c :: t) := by
  simp only [openers, h, if_true]
  omega

theorem openers_drop {c : Char} (m : Str) {t : Str} (h : atOpener (c :: (m ++ t)) = true) :
    openers t < openers (c :: (m ++ t)) :=
  Nat.lt_of_le_of_lt (openers_append m t) (openers_cons h)

theorem op_char {c : Char} (hc : (c == '(' || c == '[' || c == '{' || isOpChar c) = true) :
    Op openers (char c) := fun s v r h => by
  cases s with
  | nil => simp at h
  | cons d s =>
    by_cases e : d = c
    · subst e
      rw [char_cons] at h
      cases h
      apply openers_cons
      simp only [atOpener, hc, Bool.true_or]
    · rw [char_cons_ne s e] at h; cases h

theorem op_tag {c : Char} {m : Str} (hc : ∀ t, atOpener (c :: (m ++ t)) = true) :
    Op openers (tag (c :: m)) := fun s v r h => by
  obtain ⟨rfl, rfl⟩ := tag_eq_ok.1 h
  exact openers_drop m (hc r)

theorem op_operatorOrAs : Op openers operatorOrAs := fun s v r h => by
  unfold operatorOrAs at h
  obtain ⟨u, h1, -⟩ := pmap_eq_ok.1 h
  clear h
  rename _ => h
  rw [alt_apply] at h
  cases e : tag c!"as" s with
  | ok v' r' =>
    rw [e, orElse_ok] at h
    cases h
    exact op_tag (c := 'a') (m := ['s']) (fun t => by simp [atOpener, List.isPrefixOf]) s _ _ e
  | err =>
    rw [e, orElse_err] at h
    unfold operator at h
    rw [reMatches_index] at h
    cases e' : rePlus isOpChar s with
    | none => rw [e'] at h; cases h
    | some x =>
      obtain ⟨m, r2⟩ := x
      rw [e'] at h
      simp only at h
      obtain ⟨rfl, ⟨c, cs, rfl, hc, -⟩, -⟩ := reHeadTail_iff.1 e'
      have : r2 = r := by
        split at h
        · cases h
        · cases h; rfl
      subst this
      exact openers_drop cs (by simp only [atOpener, hc, Bool.or_true, Bool.true_or])
  | panic => rw [e] at h; cases h
  | div => rw [e] at h; cases h

section
variable {k : Nat} {R : ExprRec} (h : ∀ ind, Nd openers k (R ind)) (ind : Nat)

theorem gd_tag (c : Char) (m : Str) : ∀ j, Good j (tag (c :: m)) := fun j => (cons_tag j c m).good
theorem gd_optGap (ind : Nat) (ir : IR) : ∀ j, Good j (optGap ind ir) := fun j => good_optGap j ind ir
theorem gd_comma (ind : Nat) : ∀ j, Good j (commaSep ind) := fun j => (cons_commaSep j ind).good
theorem gd_ms0 : ∀ j, Good j multispace0 := good_multispace0

include h

theorem nd_tuple : Nd openers (k + 1) (tuple R ind) :=
  nd_pmap openers_shrinks <| nd_delimited openers_shrinks (nd_good (gd_char _)) (op_char rfl)
    (nd_sepList openers_shrinks (gd_char _)
      (nd_bind openers_shrinks (nd_good gd_ms0) fun _ => nd_bind openers_shrinks (h ind) fun _ =>
        nd_bind openers_shrinks (nd_good gd_ms0) fun _ => nd_pure _))
    (nd_good (gd_char _))

theorem nd_list : Nd openers (k + 1) (list R ind) :=
  nd_pmap openers_shrinks <| nd_delimited openers_shrinks
    (nd_good fun j => good_preceded (gd_char _ j) (gd_oGap _ _ j))
    (op_preceded openers_shrinks (op_char rfl) (gd_oGap _ _))
    (nd_opt openers_shrinks (nd_sepList openers_shrinks (gd_comma ind) (h ind)))
    (nd_good (gd_closer ind ']'))

theorem nd_record : Nd openers (k + 1) (record R ind) :=
  nd_pmap openers_shrinks <| nd_delimited openers_shrinks
    (nd_good fun j => good_preceded (gd_char _ j) (gd_oGap _ _ j))
    (op_preceded openers_shrinks (op_char rfl) (gd_oGap _ _))
    (nd_sepList openers_shrinks (gd_comma ind)
      (nd_bind openers_shrinks (nd_good gd_lo) fun _ =>
        nd_bind openers_shrinks (nd_good fun j =>
          (delimited_cons (good_oGap j ind _) (cons_char j _) (good_oGap j ind _)).good) fun _ =>
        nd_bind openers_shrinks (h ind) fun _ => nd_pure _))
    (nd_good (gd_closer ind '}'))

theorem nd_recordUpdate : Nd openers (k + 1) (recordUpdate R ind) :=
  nd_delimited openers_shrinks
    (nd_good fun j => good_preceded (gd_char _ j) (gd_optGap _ _ j))
    (op_preceded openers_shrinks (op_char rfl) (gd_optGap _ _))
    (nd_bind openers_shrinks (nd_good gd_lo) fun _ =>
      nd_bind openers_shrinks (nd_good (gd_optGap _ _)) fun _ =>
      nd_bind openers_shrinks (nd_good (gd_char _)) fun _ =>
      nd_bind openers_shrinks (nd_good gd_ms0) fun _ =>
      nd_bind openers_shrinks (nd_sepList openers_shrinks (fun j =>
          (delimited_cons (good_optGap j ind _) (cons_char j _) (good_optGap j ind _)).good)
        (nd_bind openers_shrinks (nd_good gd_lo) fun _ =>
          nd_bind openers_shrinks (nd_good gd_ms0) fun _ =>
          nd_bind openers_shrinks (nd_good (gd_char _)) fun _ =>
          nd_bind openers_shrinks (nd_good gd_ms0) fun _ =>
          nd_bind openers_shrinks (h ind) fun _ => nd_pure _)) fun _ => nd_pure _)
    (nd_good fun j => good_terminated (gd_gap _ _ j) (gd_char _ j))

theorem nd_parens : Nd openers (k + 1) (parens R ind) :=
  nd_delimited openers_shrinks (nd_good (gd_char _)) (op_char rfl) (h ind) (nd_good (gd_char _))

theorem nd_termF : Nd openers (k + 1) (termF R ind) :=
  nd_alt (nd_good fun j => (cons_access j).good) <|
  nd_alt (nd_good fun j => (cons_variableP j).good) <|
  nd_alt (nd_good fun j => (cons_accessFunction j).good) <|
  nd_alt (nd_good fun j => (cons_string j).good) <|
  nd_alt (nd_good fun j => (cons_float j).good) <|
  nd_alt (nd_good fun j => (cons_integer j).good) <|
  nd_alt (nd_good fun j => (cons_character j).good) <|
  nd_alt (nd_parens h ind) <| nd_alt (nd_list h ind) <| nd_alt (nd_tuple h ind) <|
  nd_alt (nd_recordUpdate h ind) <| nd_alt (nd_record h ind) <|
  nd_good fun j => (cons_simplifiedRecord j).good

theorem nd_lambda : Nd openers (k + 1) (lambda R ind) :=
  nd_open (nd_good (gd_char _)) (op_char rfl) fun _ =>
    nd_bind openers_shrinks (nd_sepNonemptyList openers_shrinks
      (fun j => (cons_space1 j).good) ((nd_termF h ind).mono (by omega))) fun _ =>
    nd_bind openers_shrinks (nd_good (gd_gap _ _)) fun _ =>
    nd_bind openers_shrinks (nd_good (gd_tag _ _)) fun _ =>
    nd_bind openers_shrinks (nd_good (gd_gap _ _)) fun i =>
    nd_bind openers_shrinks (h i) fun _ => nd_pure _

theorem nd_applicationOrVar : Nd openers (k + 1) (applicationOrVar R ind) :=
  nd_bind openers_shrinks (nd_sepList openers_shrinks (gd_gap _ _) (nd_termF h ind)) fun v =>
    nd_good fun k => by
      match v with
      | [] => exact (cons_fail k).good
      | [a] => exact fun s _ => .inr ⟨a, s, rfl, List.suffix_refl s⟩
      | a :: b :: v =>
        simp only [List.isEmpty_cons, Bool.false_eq_true, if_false, List.length_cons]
        rw [if_neg (by simp)]
        exact fun s _ => .inr ⟨_, s, rfl, List.suffix_refl s⟩

theorem nd_functionDefinitionF : Nd openers (k + 1) (functionDefinitionF R ind) :=
  nd_bind openers_shrinks (nd_good fun j => (cons_functionNameOrOp j).good) fun _ =>
    nd_bind openers_shrinks (nd_many0 openers_shrinks (nd_preceded openers_shrinks
      (nd_good fun j => (cons_spaces j).good) (nd_termF h ind))) fun _ =>
    nd_bind openers_shrinks (nd_good fun j => (cons_spaces j).good) fun _ =>
    nd_open (nd_good (gd_char _)) (op_char rfl) fun _ =>
    nd_bind openers_shrinks (nd_good (gd_gap _ _)) fun i =>
    nd_bind openers_shrinks (h i) fun _ => nd_pure _

theorem nd_functionF : Nd openers (k + 1) (functionF R ind) :=
  nd_bind openers_shrinks (nd_good fun j => good_opt (good_terminated
    (cons_functionSignature j ind).good (cons_newLineAndSameIndent j ind).good)) fun _ =>
    nd_bind openers_shrinks (nd_functionDefinitionF h ind) fun _ => nd_pure _

theorem nd_letBinding : Nd openers (k + 1) (letBinding R ind) :=
  nd_bind openers_shrinks (nd_alt (nd_good fun j => (cons_variableP j).good) <|
    nd_alt (nd_list h ind) <| nd_alt (nd_tuple h ind) <|
    nd_good fun j => (cons_simplifiedRecord j).good) fun _ =>
    nd_bind openers_shrinks (nd_good (gd_gap _ _)) fun _ =>
    nd_open (nd_good (gd_char _)) (op_char rfl) fun _ =>
    nd_bind openers_shrinks (nd_good (gd_gap _ _)) fun i =>
    nd_bind openers_shrinks (h i) fun _ => nd_pure _

theorem nd_letBindings : Nd openers (k + 1) (letBindings R ind) :=
  nd_sepNonemptyList openers_shrinks (gd_gap _ _)
    (nd_alt (nd_letBinding h ind) (nd_pmap openers_shrinks (nd_functionF h ind)))

theorem nd_letExpression : Nd openers (k + 1) (letExpression R ind) :=
  nd_open (nd_good (gd_tag _ _)) (op_tag fun t => by simp [atOpener, List.isPrefixOf]) fun _ =>
    nd_bind openers_shrinks (nd_good (gd_gap _ _)) fun i =>
    nd_bind openers_shrinks ((nd_letBindings h i).mono (by omega)) fun _ =>
    nd_bind openers_shrinks (nd_good (gd_gap _ _)) fun _ =>
    nd_bind openers_shrinks (nd_good (gd_tag _ _)) fun _ =>
    nd_bind openers_shrinks (nd_good (gd_gap _ _)) fun _ =>
    nd_bind openers_shrinks (h ind) fun _ => nd_pure _

theorem nd_casesP : Nd openers k (casesP R ind) :=
  nd_sepNonemptyList openers_shrinks (gd_gap _ _) <|
    nd_bind openers_shrinks (h ind) fun _ =>
    nd_bind openers_shrinks (nd_good (gd_gap _ _)) fun _ =>
    nd_bind openers_shrinks (nd_good (gd_tag _ _)) fun _ =>
    nd_bind openers_shrinks (nd_good (gd_gap _ _)) fun i =>
    nd_bind openers_shrinks (h i) fun _ => nd_pure _

theorem nd_caseExpression : Nd openers (k + 1) (caseExpression R ind) :=
  nd_open (nd_good (gd_tag _ _)) (op_tag fun t => by simp [atOpener, List.isPrefixOf]) fun _ =>
    nd_bind openers_shrinks (nd_good (gd_gap _ _)) fun _ =>
    nd_bind openers_shrinks (h ind) fun _ =>
    nd_bind openers_shrinks (nd_good (gd_gap _ _)) fun _ =>
    nd_bind openers_shrinks (nd_good (gd_tag _ _)) fun _ =>
    nd_bind openers_shrinks (nd_good (gd_gap _ _)) fun i =>
    nd_bind openers_shrinks (nd_casesP h i) fun _ => nd_pure _

theorem nd_ifExpression : Nd openers (k + 1) (ifExpression R ind) :=
  nd_open (nd_good (gd_tag _ _)) (op_tag fun t => by simp [atOpener, List.isPrefixOf]) fun _ =>
    nd_bind openers_shrinks (nd_good (gd_gap _ _)) fun _ =>
    nd_bind openers_shrinks (h ind) fun _ =>
    nd_bind openers_shrinks (nd_good (gd_gap _ _)) fun _ =>
    nd_bind openers_shrinks (nd_good (gd_tag _ _)) fun _ =>
    nd_bind openers_shrinks (nd_good (gd_gap _ _)) fun i =>
    nd_bind openers_shrinks (h i) fun _ =>
    nd_bind openers_shrinks (nd_good (gd_gap _ _)) fun _ =>
    nd_bind openers_shrinks (nd_good (gd_tag _ _)) fun _ =>
    nd_bind openers_shrinks (nd_good (gd_gap _ _)) fun j =>
    nd_bind openers_shrinks (h j) fun _ => nd_pure _

theorem nd_binary : Nd openers (k + 1) (binary R ind) :=
  nd_bind openers_shrinks (nd_applicationOrVar h ind) fun _ =>
    nd_bind openers_shrinks (nd_opt openers_shrinks (
      nd_bind openers_shrinks (nd_good (gd_gap _ _)) fun _ =>
      nd_open (nd_good fun j => (cons_operatorOrAs j).good) op_operatorOrAs fun _ =>
      nd_bind openers_shrinks (nd_good fun j => (cons_multispace j).good) fun _ =>
      nd_bind openers_shrinks (h ind) fun _ => nd_pure _)) fun _ => nd_pure _

theorem nd_expressionF : Nd openers (k + 1) (expressionF R ind) :=
  nd_alt (nd_binary h ind) <| nd_alt (nd_letExpression h ind) <|
  nd_alt (nd_caseExpression h ind) <| nd_alt (nd_ifExpression h ind) (nd_lambda h ind)
end

theorem nd_exprN (n : Nat) (ind : Nat) : Nd openers n (exprN n ind) := by
  induction n generalizing ind with
  | zero => exact fun s hs => by omega
  | succ n ih => exact nd_expressionF ih ind

end ElmParser
