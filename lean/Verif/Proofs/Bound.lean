import Verif.Proofs.Printed
import Verif.Proofs.ExprComplete

/-! An upper bound for the number of events. -/
namespace ElmParser.Trace
open Spec

@[inherit_doc] local infixr:20 " </> " => alt

variable {α β γ δ : Type}

/-- The weight of a text of length `n`. -/
def X (n : Nat) : Nat := 128 ^ n

/-- The weight of what is left of a text of length `n` after one character. -/
def Y : Nat → Nat
  | 0 => 0
  | n + 1 => X n

/-- A weight: one character more at least doubles it. -/
def Dbl (w : Nat → Nat) : Prop := ∀ n, 2 * w n ≤ w (n + 1)

theorem dbl_X : Dbl X := fun n => by unfold X; rw [Nat.pow_succ]; omega
theorem dbl_Y : Dbl Y := fun n => by
  cases n with
  | zero => exact Nat.zero_le _
  | succ n => exact dbl_X n

theorem X_pos (n : Nat) : 0 < X n := Nat.pow_pos (by decide)

theorem Dbl.mono {w : Nat → Nat} (h : Dbl w) {m n : Nat} (hmn : m ≤ n) : w m ≤ w n := by
  induction hmn with
  | refl => exact Nat.le_refl _
  | @step n _ ih => have : 2 * w n ≤ w (n + 1) := h n; show w m ≤ w (n + 1); omega

theorem Dbl.two {w : Nat → Nat} (h : Dbl w) {m n : Nat} (hmn : m < n) : 2 * w m ≤ w n :=
  Nat.le_trans (h m) (h.mono hmn)

theorem Y_le_X (n : Nat) : Y n ≤ X n := by
  cases n with
  | zero => exact Nat.zero_le _
  | succ n => exact dbl_X.mono (Nat.le_succ n)

theorem X_le_Y {m n : Nat} (h : m < n) : X m ≤ Y n := by
  cases n with
  | zero => omega
  | succ n => exact dbl_X.mono (by omega)

/-- A result on a text of length `n`: a bound for its events, and it leaves no more than there was. -/
def Bo (n b : Nat) (x : Res α × List Event) : Prop := x.2.length ≤ b ∧ ∀ v r, x.1 = .ok v r → r.length ≤ n

/-- On texts of at most `k` characters, `p` has at most `a` times the weight of the text many events. -/
def Bd (k : Nat) (w : Nat → Nat) (a : Nat) (p : TP α) : Prop := ∀ s, s.length ≤ k → Bo s.length (a * w s.length) (p s)

/-- `p` consumes something. -/
def St (p : TP α) : Prop := ∀ s v r, (p s).1 = .ok v r → r.length < s.length

theorem st_er {p : TP α} {q : Parser α} (h : Er p q) (hq : ∀ k, Cons k q) : St p := fun s _ _ e =>
  lt_of_ok hq ((h s).symm.trans e)
theorem st_cons {p : Parser α} (h : ∀ k, Cons k p) : St (free p) := st_er (er_free p) h

theorem Bd.le {k : Nat} {w : Nat → Nat} {a b : Nat} {p : TP α} (h : Bd k w a p) (hab : a ≤ b) : Bd k w b p :=
  fun s hs => ⟨Nat.le_trans (h s hs).1 (Nat.mul_le_mul_right _ hab), (h s hs).2⟩

theorem Bd.down {k : Nat} {a : Nat} {p : TP α} (h : Bd (k + 1) Y a p) : Bd k X a p := fun s hs =>
  ⟨Nat.le_trans (h s (by omega)).1 (Nat.mul_le_mul_left _ (Y_le_X _)), (h s (by omega)).2⟩

variable {k : Nat} {w : Nat → Nat} {a b : Nat}

theorem bd_free {p : Parser α} (h : ∀ k, Good k p) : Bd k w 0 (free p) := fun _ _ =>
  ⟨Nat.zero_le _, fun _ _ e => (suffix_of_ok h e).length_le⟩
theorem bd_cons {p : Parser α} (h : ∀ k, Cons k p) : Bd k w 0 (free p) := bd_free fun k => (h k).good
theorem bd_pure (v : α) : Bd k w 0 (pure v) := fun _ _ => ⟨Nat.zero_le _, fun _ _ e => by cases e; exact Nat.le_refl _⟩
theorem bd_fail : Bd k w 0 (free (Parser.fail : Parser α)) := fun _ _ => ⟨Nat.zero_le _, fun _ _ e => by cases e⟩
theorem bd_div : Bd k w 0 (free fun _ => (.div : Res α)) := fun _ _ => ⟨Nat.zero_le _, fun _ _ e => by cases e⟩
theorem bd_index (v : List α) (i : Nat) : Bd k w 0 (free (index v i)) := fun s _ => ⟨Nat.zero_le _, fun w r e => by
  unfold index at e
  split at e <;> cases e
  exact Nat.le_refl _⟩

theorem bo_andThen {n b c : Nat} {x : Res α × List Event} {f : α → TP β} (h : Bo n b x)
    (hf : ∀ v r, x.1 = .ok v r → Bo n c (f v r)) : Bo n (b + c) (andThen x f) := by
  obtain ⟨x, l⟩ := x
  cases x with
  | ok v r =>
    have := hf v r rfl
    refine ⟨?_, this.2⟩
    simp only [andThen, List.length_append]
    exact Nat.add_le_add h.1 this.1
  | err => exact ⟨Nat.le_trans h.1 (Nat.le_add_right _ _), by simp [andThen]⟩
  | panic => exact ⟨Nat.le_trans h.1 (Nat.le_add_right _ _), by simp [andThen]⟩
  | div => exact ⟨Nat.le_trans h.1 (Nat.le_add_right _ _), by simp [andThen]⟩

theorem Bo.le {n b c m : Nat} {x : Res α × List Event} (h : Bo n b x) (hn : n ≤ m) (hb : b ≤ c) : Bo m c x :=
  ⟨Nat.le_trans h.1 hb, fun v r e => Nat.le_trans (h.2 v r e) hn⟩

theorem Bo.of {n b : Nat} {x : Res α × List Event} (h : Bo n b x) {y : Res β} (hy : ∀ v r, y = .ok v r → r.length ≤ n) :
    Bo n b (y, x.2) := ⟨h.1, hy⟩

theorem Bo.self {b : Nat} {s : Str} {x : Res α × List Event} (h : Bo s.length b x) (v : β) : Bo s.length b (.ok v s, x.2) :=
  h.of fun w r e => by cases e; exact Nat.le_refl _

theorem bo_append {n b c : Nat} {y : Res γ} {k l : List Event} (hk : k.length ≤ b) (h : Bo n c (y, l)) :
    Bo n (b + c) (y, k ++ l) := ⟨by rw [List.length_append]; exact Nat.add_le_add hk h.1, h.2⟩

theorem bd_bind (hw : Dbl w) {p : TP α} {f : α → TP β} (h : Bd k w a p) (hf : ∀ v, Bd k w b (f v)) :
    Bd k w (a + b) (p >>= f) := fun s hs => by
  rw [Nat.add_mul]
  refine bo_andThen (h s hs) fun v r e => ?_
  have hr := (h s hs).2 v r e
  exact (hf v r (by omega)).le hr (Nat.mul_le_mul_left _ (hw.mono hr))

theorem bd_eat {p : TP α} {f : α → TP β} (h : Bd (k + 1) Y a p) (hp : St p) (hf : ∀ v, Bd k X b (f v)) :
    Bd (k + 1) Y (a + b) (p >>= f) := fun s hs => by
  rw [Nat.add_mul]
  refine bo_andThen (h s hs) fun v r e => ?_
  have hr := hp s v r e
  exact (hf v r (by omega)).le (by omega) (Nat.mul_le_mul_left _ (X_le_Y hr))

theorem bd_alt {p q : TP α} (h : Bd k w a p) (h' : Bd k w b q) : Bd k w (a + b) (p </> q) := fun s hs => by
  unfold alt
  have := h s hs
  rw [Nat.add_mul]
  cases hp : p s with
  | mk x n =>
    rw [hp] at this
    cases x with
    | err => exact bo_append this.1 (h' s hs)
    | ok v r => exact this.le (Nat.le_refl _) (Nat.le_add_right _ _)
    | panic => exact this.le (Nat.le_refl _) (Nat.le_add_right _ _)
    | div => exact this.le (Nat.le_refl _) (Nat.le_add_right _ _)

theorem bd_pmap (hw : Dbl w) {p : TP α} {f : α → β} (h : Bd k w a p) : Bd k w a (pmap p f) := bd_bind hw h fun _ => bd_pure _
theorem bd_opt (hw : Dbl w) {p : TP α} (h : Bd k w a p) : Bd k w a (opt p) := bd_alt (bd_pmap hw h) (bd_pure _)

/-- One step of a loop, and what follows. -/
theorem bo_step (hw : Dbl w) {x : Res α × List Event} {f : α → TP β} {s : Str} (hs : s.length ≤ k)
    (h : Bo s.length (a * w s.length) x)
    (hlt : ∀ v r, x.1 = .ok v r → r.length < s.length) (hf : ∀ v, Bd k w (2 * a) (f v)) :
    Bo s.length (2 * a * w s.length) (andThen x f) := by
  refine (bo_andThen (c := a * w s.length) h fun v r e => ?_).le (Nat.le_refl _) (by
    rw [Nat.mul_assoc]; omega)
  have hr := hlt v r e
  refine (hf v r (by omega)).le (by omega) ?_
  rw [Nat.mul_comm 2 a, Nat.mul_assoc]
  exact Nat.mul_le_mul_left _ (hw.two hr)

theorem bd_many0Loop (hw : Dbl w) {p : TP α} (h : Bd k w a p) (hp : St p) (n : Nat) : Bd k w (2 * a) (many0Loop p n) := by
  induction n with
  | zero => exact bd_div.le (Nat.zero_le _)
  | succ n ih =>
    intro s hs
    simp only [many0Loop]
    have h1 := h s hs
    have h2 : a * w s.length ≤ 2 * a * w s.length := Nat.mul_le_mul_right _ (by omega)
    have h3 := hp s
    cases hp : p s with
    | mk x l =>
      rw [hp] at h1 h3
      cases x with
      | ok v r =>
        simp only
        split
        · exact (h1.self _).le (Nat.le_refl _) h2
        · exact bo_step hw hs h1 h3 fun v => bd_bind hw ih fun _ => bd_pure _
      | err => exact (h1.self _).le (Nat.le_refl _) h2
      | panic => exact (h1.of (by simp)).le (Nat.le_refl _) h2
      | div => exact (h1.of (by simp)).le (Nat.le_refl _) h2

theorem bd_many0 (hw : Dbl w) {p : TP α} (h : Bd k w a p) (hp : St p) : Bd k w (2 * a) (many0 p) := fun s =>
  bd_many0Loop hw h hp (s.length + 1) s

theorem bd_sepLoop (hw : Dbl w) {sep : Parser β} {p : TP α} (hs : ∀ k, Good k sep) (h : Bd k w a p) (n : Nat) :
    Bd k w (2 * a) (sepLoop (free sep) p n) := by
  induction n with
  | zero => exact bd_div.le (Nat.zero_le _)
  | succ n ih =>
    intro s hsk
    simp only [sepLoop, free]
    have h0 : ∀ {γ : Type} (y : Res γ), (∀ v r, y = .ok v r → r.length ≤ s.length) →
      Bo s.length (2 * a * w s.length) (y, ([] : List Event)) := fun y hy => ⟨Nat.zero_le _, hy⟩
    have hself : ∀ {γ : Type} (v : γ) u r, (.ok v s : Res γ) = .ok u r → r.length ≤ s.length :=
      fun v u r e => by cases e; exact Nat.le_refl _
    cases hp : sep s with
    | ok u s2 =>
      simp only
      split
      · exact h0 _ (hself _)
      · next hne =>
        have h2l := (suffix_of_ok hs hp).length_le
        have hlt : s2.length < s.length := by omega
        have h1 := (h s2 (by omega)).le (m := s.length) (by omega) (Nat.mul_le_mul_left a (hw.mono (Nat.le_of_lt hlt)))
        have h3 := (h s2 (by omega)).2
        have h2 : a * w s.length ≤ 2 * a * w s.length := Nat.mul_le_mul_right _ (by omega)
        cases hq : p s2 with
        | mk y l =>
          rw [hq] at h1 h3
          simp only [List.nil_append]
          cases y with
          | ok v r =>
            simp only
            split
            · exact (h1.self _).le (Nat.le_refl _) h2
            · refine bo_step hw hsk h1 (fun v r e => ?_) fun v => bd_bind hw ih fun _ => bd_pure _
              have := h3 v r e
              omega
          | err => exact (h1.self _).le (Nat.le_refl _) h2
          | panic => exact (h1.of (by simp)).le (Nat.le_refl _) h2
          | div => exact (h1.of (by simp)).le (Nat.le_refl _) h2
    | err => exact h0 _ (hself _)
    | panic => exact h0 _ (by simp)
    | div => exact h0 _ (by simp)

theorem bd_sepNonemptyList (hw : Dbl w) {sep : Parser β} {p : TP α} (hs : ∀ k, Good k sep) (h : Bd k w a p) :
    Bd k w (2 * a) (sepNonemptyList (free sep) p) := fun s hsk => by
  unfold sepNonemptyList
  have h1 := h s hsk
  have e : ∀ v r, (p s).1 = .ok v r → ¬ r.length = s.length → r.length < s.length := fun v r e hne => by
    have := h1.2 v r e; omega
  refine (bo_andThen (c := a * w s.length) h1 fun v r hr => ?_).le (Nat.le_refl _) (by
    rw [Nat.mul_assoc]; omega)
  split
  · exact ⟨Nat.zero_le _, by simp⟩
  · next hne =>
    have hlt := e v r hr hne
    refine (bd_bind hw (bd_sepLoop hw hs h _) (fun _ => bd_pure _) r (by omega)).le (by omega) ?_
    rw [Nat.mul_comm 2 a, Nat.add_zero, Nat.mul_assoc]
    exact Nat.mul_le_mul_left _ (hw.two hlt)

theorem bd_sepList (hw : Dbl w) {sep : Parser β} {p : TP α} (hs : ∀ k, Good k sep) (h : Bd k w a p) :
    Bd k w (2 * a) (sepList (free sep) p) := fun s hsk => by
  unfold sepList
  have h1 := h s hsk
  have h2 : a * w s.length ≤ 2 * a * w s.length := Nat.mul_le_mul_right _ (by omega)
  cases hp : p s with
  | mk x l =>
    rw [hp] at h1
    cases x with
    | ok v r =>
      simp only
      split
      · exact (h1.of (by simp)).le (Nat.le_refl _) h2
      · next hne =>
        refine bo_step hw hsk h1 (fun v' r' e => ?_) fun v => bd_bind hw (bd_sepLoop hw hs h _) fun _ => bd_pure _
        have := h1.2 _ _ e
        cases e
        omega
    | err => exact (h1.self _).le (Nat.le_refl _) h2
    | panic => exact (h1.of (by simp)).le (Nat.le_refl _) h2
    | div => exact (h1.of (by simp)).le (Nat.le_refl _) h2

theorem bd_preceded (hw : Dbl w) {p : TP α} {q : TP β} (h : Bd k w a p) (h' : Bd k w b q) : Bd k w (a + b) (preceded p q) :=
  bd_bind hw h fun _ => h'
theorem bd_terminated (hw : Dbl w) {p : TP α} {q : TP β} (h : Bd k w a p) (h' : Bd k w b q) :
    Bd k w (a + b) (terminated p q) := bd_bind hw h fun _ => bd_bind hw h' fun _ => bd_pure _
theorem bd_delimited (hw : Dbl w) {c : Nat} {p : TP α} {q : TP β} {t : TP γ} (h : Bd k w a p) (h' : Bd k w b q)
    (h'' : Bd k w c t) : Bd k w (a + (b + c)) (delimited p q t) :=
  bd_bind hw h fun _ => bd_bind hw h' fun _ => bd_bind hw h'' fun _ => bd_pure _
theorem bd_separatedPair (hw : Dbl w) {c : Nat} {p : TP α} {q : TP β} {t : TP γ} (h : Bd k w a p) (h' : Bd k w b q)
    (h'' : Bd k w c t) : Bd k w (a + (b + c)) (separatedPair p q t) :=
  bd_bind hw h fun _ => bd_bind hw h' fun _ => bd_bind hw h'' fun _ => bd_pure _

/-- What follows the opening token is only given a shorter text. -/
theorem bd_opened {c : Nat} {p : TP α} {q : TP β} {t : TP γ} (h : Bd (k + 1) Y a p) (hp : St p) (h' : Bd k X b q)
    (h'' : Bd k X c t) : Bd (k + 1) Y (a + (b + c)) (delimited p q t) :=
  bd_eat h hp fun _ => bd_bind dbl_X h' fun _ => bd_bind dbl_X h'' fun _ => bd_pure _

theorem bd_character : Bd k Y 1 character := fun s _ => by
  refine ⟨?_, fun v r e => (suffix_of_ok (fun k => (cons_character k).good) ((er_character s).symm.trans e)).length_le⟩
  rcases character_events s with h | ⟨a, b, t, rfl, h⟩
  · rw [h]; exact Nat.zero_le _
  · rw [h, Nat.one_mul]; exact X_pos _

/-- Structural proof. -/
macro "bd_tac" h:ident : tactic => `(tactic| repeat' first
  | with_reducible exact $h _
  | with_reducible exact bd_pure _
  | with_reducible assumption
  | with_reducible exact dbl_X
  | with_reducible exact dbl_Y
  | with_reducible exact bd_cons fun k => cons_char k _
  | with_reducible exact bd_cons fun k => cons_tag k _ _
  | with_reducible exact bd_cons fun k => cons_gap k _ _
  | with_reducible exact bd_free fun k => good_optGap k _ _
  | with_reducible exact bd_cons fun k => cons_commaSep k _
  | with_reducible exact bd_cons cons_loName
  | with_reducible exact bd_free good_multispace0
  | with_reducible exact bd_cons cons_multispace
  | with_reducible exact bd_cons cons_spaces
  | with_reducible exact bd_cons cons_space1
  | with_reducible exact bd_cons cons_operatorOrAs
  | with_reducible exact bd_cons cons_functionNameOrOp
  | with_reducible exact bd_cons cons_access
  | with_reducible exact bd_cons cons_variableP
  | with_reducible exact bd_cons cons_accessFunction
  | with_reducible exact bd_cons cons_string
  | with_reducible exact bd_cons cons_float
  | with_reducible exact bd_cons cons_integer
  | with_reducible exact bd_cons cons_simplifiedRecord
  | with_reducible exact bd_cons cons_typeVariable
  | with_reducible exact bd_cons cons_typeConstant
  | with_reducible exact bd_cons cons_upDots
  | with_reducible exact bd_cons fun k => cons_newLineAndSameIndent k _
  | with_reducible exact bd_cons cons_portModuleDeclaration
  | with_reducible exact bd_cons cons_effectModuleDeclaration
  | with_reducible exact bd_cons cons_moduleDeclaration
  | with_reducible exact bd_cons cons_importStatement
  | with_reducible exact bd_cons cons_infixDeclaration
  | with_reducible exact bd_cons cons_comment
  | with_reducible exact bd_free good_eof
  | with_reducible exact st_cons fun k => cons_char k _
  | with_reducible exact st_cons fun k => cons_tag k _ _
  | with_reducible exact st_cons cons_operatorOrAs
  | with_reducible exact fun k => (cons_char k _).good
  | with_reducible exact fun k => (cons_commaSep k _).good
  | with_reducible exact fun k => (cons_gap k _ _).good
  | with_reducible exact fun k => (cons_space1 k).good
  | with_reducible exact fun k => (cons_updateSep k).good
  | with_reducible exact good_multispace0
  | with_reducible apply bd_alt
  | with_reducible apply bd_pmap
  | with_reducible apply bd_opt
  | with_reducible apply bd_preceded
  | with_reducible apply bd_terminated
  | with_reducible apply bd_delimited
  | with_reducible apply bd_separatedPair
  | with_reducible apply bd_sepNonemptyList
  | with_reducible apply bd_sepList
  | with_reducible apply bd_bind
  | with_reducible intro _)

theorem free_bind (p : Parser α) (f : α → Parser β) : (free p >>= fun v => free (f v)) = free (p >>= f) := by
  funext s
  show andThen (p s, []) _ = (_, [])
  rw [ElmParser.bind_apply]
  cases p s <;> rfl

theorem updateSep_free (ind : Nat) : delimited (free (optGap ind .GTE)) (free (char ',')) (free (optGap ind .GTE)) =
    free (ElmParser.delimited (optGap ind .GTE) (char ',') (optGap ind .GTE)) := by
  unfold delimited ElmParser.delimited
  rw [← free_bind]
  congr 1; funext _
  rw [← free_bind]
  congr 1; funext _
  rw [← free_bind]
  rfl

/-- Structural proof, starting with a token that is consumed. -/
macro "bd_open" h:ident : tactic => `(tactic| (
  apply Bd.le
  · first | apply bd_opened | apply bd_eat
    all_goals bd_tac $h
  all_goals decide))

/-! ### Types -/

theorem st_open (c : Char) (ind : Nat) : St (preceded (free (char c)) (opt (free (gap ind .GTE)))) :=
  st_er (er_preceded (er_free _) (er_opt (er_free _))) fun k => by
    cases k with
    | zero => intro s hs; omega
    | succ k => exact cons_preceded (cons_char _ _) (good_oGap k _ _)

section
variable (h : ∀ ind, Bd k X 1 (tyRec.type_ ind)) (h' : ∀ ind, Bd k X 1 (tyRec.typeAnnotation ind)) (ind : Nat)

include h in
theorem bd_typeTuple : Bd (k + 1) Y 2 (typeTuple tyRec ind) := by
  have := st_open '(' ind
  unfold typeTuple
  refine bd_pmap dbl_Y ?_
  bd_open h

section
include h'
theorem bd_typeRecordPairs : Bd k X 2 (typeRecordPairs tyRec ind) := by
  unfold typeRecordPairs typeRecordPair
  apply Bd.le
  · bd_tac h'
  decide
theorem bd_typeRecordConstructor : Bd (k + 1) Y 2 (typeRecordConstructor tyRec ind) := by
  have := bd_typeRecordPairs h' ind
  unfold typeRecordConstructor
  bd_open h'
theorem bd_typeRecord : Bd (k + 1) Y 2 (typeRecord tyRec ind) := by
  have := bd_typeRecordPairs h' ind
  have := st_open '{' ind
  unfold typeRecord
  bd_open h'
theorem bd_typeParens : Bd (k + 1) Y 1 (typeParens tyRec ind) := by
  have := st_open '(' ind
  unfold typeParens
  bd_open h'
end

include h h'
theorem bd_typeParameter : Bd (k + 1) Y 7 (typeParameter tyRec ind) := by
  have h1 := bd_typeTuple h ind
  have h2 := bd_typeRecordConstructor h' ind
  have h3 := bd_typeRecord h' ind
  have h4 := bd_typeParens h' ind
  unfold typeParameter
  apply Bd.le
  · bd_tac h
  decide
theorem bd_typeArg : Bd (k + 1) Y 7 (typeArg tyRec ind) := by
  have h1 := bd_typeParameter h h'
  unfold typeArg
  apply Bd.le
  · bd_tac h1
  decide
theorem bd_typeConstructorF : Bd (k + 1) Y 14 (typeConstructorF tyRec ind) := by
  have h1 := bd_many0 dbl_Y (bd_typeArg h h' ind)
    (st_er (er_typeArg er_tyRec ind) fun k => (cons_typeArg (goodRec_tyRec k) ind).mono (Nat.le_succ _))
  unfold typeConstructorF
  apply Bd.le
  · bd_tac h
  decide

/-- The weight of a call of `type_`. -/
def W : Nat → Nat
  | 0 => 1
  | n + 1 => 22 * X n

omit h h' in
theorem dbl_W : Dbl W := fun n => by
  cases n with
  | zero => decide
  | succ n =>
    have := dbl_X n
    show 2 * (22 * X n) ≤ 22 * X (n + 1)
    omega

theorem bd_typeF : Bd (k + 1) W 1 (typeF tyRec ind) := by
  have h0 := bd_typeConstructorF h h' ind
  have h1 := bd_typeTuple h ind
  have h2 := bd_typeRecordConstructor h' ind
  have h3 := bd_typeRecord h' ind
  have h4 := bd_typeParens h' ind
  have : Bd (k + 1) Y 21 (typeConstructorF tyRec ind </> free typeVariable </> typeRecordConstructor tyRec ind </>
      typeRecord tyRec ind </> typeTuple tyRec ind </> typeParens tyRec ind) := by
    apply Bd.le
    · bd_tac h
    decide
  intro s hs
  have h5 := this s hs
  refine ⟨?_, h5.2⟩
  cases s with
  | nil => exact Nat.le_refl 1
  | cons c s =>
    have h6 : _ ≤ 21 * X s.length := h5.1
    have h7 := X_pos s.length
    show _ + 1 ≤ 1 * (22 * X s.length)
    omega
theorem bd_typeAnnotationF : Bd (k + 1) W 2 (typeAnnotationF tyRec ind) := by
  have h0 := bd_typeF h h' ind
  unfold typeAnnotationF
  refine bd_bind (a := 2) (b := 0) dbl_W (bd_sepNonemptyList dbl_W (fun k => (cons_arrowSep k).good) h0) fun v => ?_
  split
  · exact bd_fail
  · split
    · exact bd_index _ _
    · generalize buildArrows v.reverse = o
      cases o
      · exact bd_fail
      · exact bd_pure _
end

/-- The bound for types. -/
theorem bd_types (k : Nat) : (∀ ind, Bd k X 1 (tyRec.type_ ind)) ∧ ∀ ind, Bd k X 1 (tyRec.typeAnnotation ind) := by
  have hn : ∀ ind, Bo 0 1 (tyRec.type_ ind []) := fun ind => ⟨Nat.le_refl 1, fun v r e => by cases e⟩
  have hn' : ∀ ind, Bo 0 1 (tyRec.typeAnnotation ind []) := fun ind => ⟨Nat.le_refl 1, fun v r e => by cases e⟩
  have hw : ∀ n, 2 * W (n + 1) ≤ X (n + 1) := fun n => by
    show 2 * (22 * X n) ≤ 128 ^ (n + 1)
    rw [Nat.pow_succ]
    show 2 * (22 * X n) ≤ X n * 128
    omega
  induction k with
  | zero =>
    refine ⟨fun ind s hs => ?_, fun ind s hs => ?_⟩ <;>
    · have : s = [] := List.eq_nil_of_length_eq_zero (by omega)
      subst this
      first | exact hn ind | exact hn' ind
  | succ k ih =>
    refine ⟨fun ind s hs => ?_, fun ind s hs => ?_⟩
    · cases s with
      | nil => exact hn ind
      | cons c s =>
        have h1 := bd_typeF ih.1 ih.2 ind (c :: s) hs
        rw [← type_unfold] at h1
        have := hw s.length
        exact h1.le (Nat.le_refl _) (show 1 * W (s.length + 1) ≤ 1 * X (s.length + 1) by omega)
    · cases s with
      | nil => exact hn' ind
      | cons c s =>
        have h1 := bd_typeAnnotationF ih.1 ih.2 ind (c :: s) hs
        rw [← typeAnnotation_unfold] at h1
        have := hw s.length
        exact h1.le (Nat.le_refl _) (show 2 * W (s.length + 1) ≤ 1 * X (s.length + 1) by omega)

theorem bd_type (k ind : Nat) : Bd k X 1 (type_ ind) := (bd_types k).1 ind
theorem bd_typeAnnotation (k ind : Nat) : Bd k X 1 (typeAnnotation ind) := (bd_types k).2 ind
theorem bd_typeConstructor (k ind : Nat) : Bd k X 14 (typeConstructor ind) :=
  (bd_typeConstructorF (bd_types k).1 (bd_types k).2 ind).down
theorem bd_functionSignature (k ind : Nat) : Bd k X 1 (functionSignature ind) := by
  have h := bd_typeAnnotation k
  unfold functionSignature
  apply Bd.le
  · bd_tac h
  decide

/-! ### Expressions -/

section
variable (h : ∀ ind, Bd k X 1 (expression ind)) (ind : Nat)
include h

theorem bd_tuple : Bd (k + 1) Y 2 (tuple expression ind) := by
  have := h ind
  unfold tuple
  refine bd_pmap dbl_Y ?_
  bd_open h
theorem bd_list : Bd (k + 1) Y 2 (list expression ind) := by
  have := h ind
  have : St (preceded (free (char '[')) (opt (free (gap ind .GTE)))) :=
    st_er (er_preceded (er_free _) (er_opt (er_free _))) fun k => by
      cases k with
      | zero => intro s hs; omega
      | succ k => exact cons_preceded (cons_char _ _) (good_oGap k _ _)
  unfold list
  refine bd_pmap dbl_Y ?_
  bd_open h
theorem bd_record : Bd (k + 1) Y 2 (record expression ind) := by
  have := h ind
  have : St (preceded (free (char '{')) (opt (free (gap ind .GTE)))) :=
    st_er (er_preceded (er_free _) (er_opt (er_free _))) fun k => by
      cases k with
      | zero => intro s hs; omega
      | succ k => exact cons_preceded (cons_char _ _) (good_oGap k _ _)
  unfold record recordField
  refine bd_pmap dbl_Y ?_
  bd_open h
theorem bd_recordUpdate : Bd (k + 1) Y 2 (recordUpdate expression ind) := by
  have := h ind
  have : St (preceded (free (char '{')) (free (optGap ind .GTE))) :=
    st_er (er_preceded (er_free _) (er_free _)) fun k => by
      cases k with
      | zero => intro s hs; omega
      | succ k => exact cons_preceded (cons_char _ _) (good_optGap k _ _)
  unfold recordUpdate updateField
  rw [updateSep_free]
  bd_open h
theorem bd_parens : Bd (k + 1) Y 1 (parens expression ind) := by
  have := h ind
  unfold parens
  bd_open h
theorem bd_termF : Bd (k + 1) Y 10 (termF expression ind) := by
  have h1 := bd_tuple h ind
  have h2 := bd_list h ind
  have h3 := bd_record h ind
  have h4 := bd_recordUpdate h ind
  have h5 := bd_parens h ind
  have h6 : Bd (k + 1) Y 1 character := bd_character
  unfold termF
  apply Bd.le
  · bd_tac h
  decide
theorem bd_lambda : Bd (k + 1) Y 21 (lambda expression ind) := by
  have h1 := (bd_termF h ind).down
  unfold lambda
  bd_open h
theorem bd_applicationOrVar : Bd (k + 1) Y 20 (applicationOrVar expression ind) := by
  have h1 := bd_termF h ind
  unfold applicationOrVar
  refine bd_bind (a := 20) (b := 0) dbl_Y (bd_sepList dbl_Y (fun k => (cons_gap k _ _).good) h1) fun v => ?_
  split
  · exact bd_fail
  · split
    · exact bd_index _ _
    · exact bd_bind (a := 0) (b := 0) dbl_Y (bd_index _ _) fun _ => bd_bind (a := 0) (b := 0) dbl_Y (bd_index _ _) fun _ => bd_pure _
theorem bd_functionDefinitionF : Bd k X 21 (functionDefinitionF expression ind) := by
  have h1 := (bd_termF h ind).down
  have h2 : Bd k X 20 (many0 (preceded (free spaces) (termF expression ind))) :=
    bd_many0 (a := 10) dbl_X (bd_preceded (a := 0) (b := 10) dbl_X (bd_cons cons_spaces) h1)
      (st_er (er_preceded (er_free _) (er_termF er_expression ind)) fun k =>
        cons_preceded' cons_spaces (fun k => cons_termE k ind) k)
  unfold functionDefinitionF
  apply Bd.le
  · bd_tac h
  decide
theorem bd_functionF : Bd k X 22 (functionF expression ind) := by
  have h2 := bd_functionSignature k ind
  have h1 := bd_functionDefinitionF h ind
  unfold functionF
  apply Bd.le
  · bd_tac h
  decide
theorem bd_letEntry : Bd k X 27 (letEntry expression ind) := by
  have h1 := bd_functionF h ind
  have h2 := (bd_tuple h ind).down
  have h3 := (bd_list h ind).down
  unfold letEntry letBinding letBindingTarget
  apply Bd.le
  · bd_tac h
  decide
theorem bd_letExpression : Bd (k + 1) Y 55 (letExpression expression ind) := by
  have h1 : ∀ j, Bd k X 54 (letBindings expression j) := fun j =>
    bd_sepNonemptyList dbl_X (fun k => (cons_gap k _ _).good) (bd_letEntry h j)
  unfold letExpression
  apply Bd.le
  · apply bd_eat
    · bd_tac h
    · bd_tac h
    · bd_tac h
      exact h1 _
  decide
theorem bd_caseBranch : Bd k X 2 (caseBranch expression ind) := by
  unfold caseBranch
  apply Bd.le
  · bd_tac h
  decide
theorem bd_caseExpression : Bd (k + 1) Y 5 (caseExpression expression ind) := by
  have h1 : ∀ j, Bd k X 4 (casesP expression j) := fun j =>
    bd_sepNonemptyList dbl_X (fun k => (cons_gap k _ _).good) (bd_caseBranch h j)
  unfold caseExpression
  apply Bd.le
  · apply bd_eat
    · bd_tac h
    · bd_tac h
    · bd_tac h
      exact h1 _
  decide
theorem bd_ifExpression : Bd (k + 1) Y 3 (ifExpression expression ind) := by
  unfold ifExpression
  bd_open h
theorem bd_binaryTail : Bd (k + 1) Y 1 (binaryTail expression ind) := by
  unfold binaryTail
  apply Bd.le
  · apply bd_eat
    · bd_tac h
    · exact st_cons fun k => cons_gap k _ _
    · bd_tac h
  decide
theorem bd_binary : Bd (k + 1) Y 21 (binary expression ind) := by
  have h1 := bd_applicationOrVar h ind
  have h2 := bd_binaryTail h ind
  unfold binary
  apply Bd.le
  · bd_tac h
  decide
theorem bd_expressionF : Bd (k + 1) Y 105 (expressionF expression ind) := by
  have h1 := bd_binary h ind
  have h2 := bd_letExpression h ind
  have h3 := bd_caseExpression h ind
  have h4 := bd_ifExpression h ind
  have h5 := bd_lambda h ind
  unfold expressionF
  apply Bd.le
  · bd_tac h
  decide
end

/-- The bound for `expression`. -/
theorem bd_expression (k ind : Nat) : Bd k X 1 (expression ind) := by
  induction k generalizing ind with
  | zero =>
    intro s hs
    have : s = [] := List.eq_nil_of_length_eq_zero (by omega)
    subst this
    exact ⟨Nat.le_refl 1, fun v r e => by cases e⟩
  | succ k ih =>
    intro s hs
    rw [expression_unfold]
    have h := bd_expressionF ih ind s hs
    refine ⟨?_, h.2⟩
    cases s with
    | nil => exact Nat.le_refl 1
    | cons c s =>
      have h1 : _ ≤ 105 * X s.length := h.1
      have h2 := X_pos s.length
      show _ + 1 ≤ 1 * X (s.length + 1)
      have h3 : X (s.length + 1) = 128 * X s.length := by unfold X; rw [Nat.pow_succ, Nat.mul_comm]
      omega

theorem bd_term (k ind : Nat) : Bd (k + 1) Y 10 (term ind) := bd_termF (bd_expression k) ind
theorem bd_function (k ind : Nat) : Bd k X 22 (function ind) := bd_functionF (bd_expression k) ind

theorem bd_typeAliasDeclaration (k : Nat) : Bd k X 2 typeAliasDeclaration := by
  have h := bd_type k
  have h1 := bd_typeAnnotation k 1
  unfold typeAliasDeclaration
  apply Bd.le
  · bd_tac h
  decide
theorem bd_typeDeclaration (k ind : Nat) : Bd k X 29 (typeDeclaration ind) := by
  have h := bd_type k
  have h1 : ∀ j, Bd k X 28 (sepNonemptyList (free (ElmParser.delimited (gap j .GTE) (char '|') spaces)) (typeConstructor j)) :=
    fun j => bd_sepNonemptyList dbl_X (fun k => good_bind (cons_gap k _ _).good fun _ => good_bind (cons_char k _).good
      fun _ => good_bind (cons_spaces k).good fun _ => good_pure _ _) (bd_typeConstructor k j)
  unfold typeDeclaration
  apply Bd.le
  · apply bd_bind dbl_X
    · bd_tac h
    intro _
    apply bd_bind dbl_X
    · bd_tac h
    intro _
    apply bd_bind dbl_X (h _)
    intro _
    apply bd_bind dbl_X
    · bd_tac h
    intro _
    apply bd_bind dbl_X
    · bd_tac h
    intro _
    apply bd_bind dbl_X
    · bd_tac h
    intro _
    apply bd_bind dbl_X (h1 _)
    intro _
    exact bd_pure _
  decide
theorem bd_portTypeDeclaration (k : Nat) : Bd k X 1 portTypeDeclaration := by
  have h := bd_typeAnnotation k
  unfold portTypeDeclaration
  apply Bd.le
  · bd_tac h
  decide
theorem bd_portDeclaration (k : Nat) : Bd k X 1 portDeclaration := by
  have h := bd_expression k
  have h1 : Bd k X 0 (free (ElmParser.many0 (ElmParser.preceded spaces loName))) :=
    bd_free fun k => good_many0 (good_preceded (cons_spaces k).good (cons_loName k).good)
  unfold portDeclaration
  apply Bd.le
  · bd_tac h
  decide
theorem bd_statement (k : Nat) : Bd k X 55 statement := by
  have h3 := bd_typeAliasDeclaration k
  have h4 := bd_typeDeclaration k 0
  have h5 := bd_portTypeDeclaration k
  have h := bd_expression k
  have h1 := bd_portDeclaration k
  have h2 := bd_function k 0
  unfold statement
  apply Bd.le
  · bd_tac h
  decide
theorem bd_statements (k : Nat) : Bd k X 110 statements := by
  have h := bd_expression k
  have h1 := bd_statement k
  unfold statements
  apply Bd.le
  · bd_tac h
  decide
theorem bd_file (k : Nat) : Bd k X 110 file := by
  have h := bd_expression k
  have h1 := bd_statements k
  unfold file
  apply Bd.le
  · bd_tac h
  decide

end ElmParser.Trace
