import Verif.Proofs.Depth

/-! The nesting of a syntax tree is a lower bound for the nesting of the calls that built it. -/
namespace ElmParser

variable {α β γ : Type}

/-! ### The nesting of trees -/

mutual
/-- How deep the brackets of a type nest, plus one.  Arguments of constructors and arrows add
nothing; tuples and records add one. -/
def nestTy : Ty → Nat
  | .TypeConstructor _ args => max 1 (nestTys args)
  | .TypeVariable _ => 1
  | .TypeRecordConstructor _ fields => 1 + nestTyFields fields
  | .TypeRecord fields => 1 + nestTyFields fields
  | .TypeTuple items => 1 + nestTys items
  | .TypeApplication a b => max (nestTy a) (nestTy b)
def nestTys : List Ty → Nat
  | [] => 0
  | t :: ts => max (nestTy t) (nestTys ts)
def nestTyFields : List (Name × Ty) → Nat
  | [] => 0
  | (_, t) :: ts => max (nestTy t) (nestTyFields ts)
end

mutual
/-- How deep an expression nests, plus one.  Literals, variables and applications add nothing;
every other form adds one to its parts — a binary operation to its **right** operand only. -/
def nest : Expr → Nat
  | .Character _ => 1
  | .String _ => 1
  | .Integer _ => 1
  | .Float _ => 1
  | .Variable _ => 1
  | .List items => 1 + nests items
  | .Tuple items => 1 + nests items
  | .Access _ _ => 1
  | .AccessFunction _ => 1
  | .Record fields => 1 + nestFields fields
  | .RecordUpdate _ fields => 1 + nestFields fields
  | .If a b c => 1 + max (nest a) (max (nest b) (nest c))
  | .Let entries body => max (nestEntries entries) (1 + nest body)
  | .Case e branches => 1 + max (nest e) (nestBranches branches)
  | .Lambda args body => max (nests args) (1 + nest body)
  | .Application f x => max (nest f) (nest x)
  | .BinOp _ l r => max (nest l) (1 + nest r)
def nests : List Expr → Nat
  | [] => 0
  | e :: es => max (nest e) (nests es)
/-- A field that is a variable counts nothing: it may be written in the short form `{ x }`, which
is read without a nested call. -/
def nestFields : List (Name × Expr) → Nat
  | [] => 0
  | (_, .Variable _) :: es => nestFields es
  | (_, e) :: es => max (nest e) (nestFields es)
def nestBranches : List (Expr × Expr) → Nat
  | [] => 0
  | (a, b) :: es => max (max (nest a) (nest b)) (nestBranches es)
def nestEntry : LetEntry → Nat
  | .LetFunction (.mk _ (.mk _ args body)) => max (nests args) (1 + nest body)
  | .LetBinding target value => max (nest target) (1 + nest value)
def nestEntries : List LetEntry → Nat
  | [] => 0
  | e :: es => max (nestEntry e) (nestEntries es)
end

theorem nestTys_le {n : Nat} {l : List Ty} (h : ∀ t ∈ l, nestTy t ≤ n) : nestTys l ≤ n := by
  induction l with
  | nil => simp [nestTys]
  | cons a l ih =>
    simp only [nestTys]
    exact Nat.max_le.2 ⟨h a (by simp), ih fun t ht => h t (by simp [ht])⟩
theorem nestTyFields_le {n : Nat} {l : List (Name × Ty)} (h : ∀ t ∈ l, nestTy t.2 ≤ n) :
    nestTyFields l ≤ n := by
  induction l with
  | nil => simp [nestTyFields]
  | cons a l ih =>
    obtain ⟨m, t⟩ := a
    simp only [nestTyFields]
    exact Nat.max_le.2 ⟨h (m, t) (by simp), ih fun t ht => h t (by simp [ht])⟩
theorem nests_le {n : Nat} {l : List Expr} (h : ∀ t ∈ l, nest t ≤ n) : nests l ≤ n := by
  induction l with
  | nil => simp [nests]
  | cons a l ih =>
    simp only [nests]
    exact Nat.max_le.2 ⟨h a (by simp), ih fun t ht => h t (by simp [ht])⟩
theorem nestFields_le {n : Nat} {l : List (Name × Expr)} (h : ∀ t ∈ l, nest t.2 ≤ n) :
    nestFields l ≤ n := by
  induction l with
  | nil => simp [nestFields]
  | cons a l ih =>
    obtain ⟨m, t⟩ := a
    have h1 := h (m, t) (by simp)
    have h2 := ih fun t ht => h t (by simp [ht])
    cases t <;> simp only [nestFields] <;> first | exact h2 | exact Nat.max_le.2 ⟨h1, h2⟩
theorem nestFields_vars {l : List (Name × Expr)} (h : ∀ t ∈ l, ∃ x, t.2 = .Variable x) :
    nestFields l = 0 := by
  induction l with
  | nil => rfl
  | cons a l ih =>
    obtain ⟨m, t⟩ := a
    obtain ⟨x, rfl⟩ := h (m, t) (by simp)
    simp only [nestFields]
    exact ih fun t ht => h t (by simp [ht])
theorem nestBranches_le {n : Nat} {l : List (Expr × Expr)}
    (h : ∀ t ∈ l, nest t.1 ≤ n ∧ nest t.2 ≤ n) : nestBranches l ≤ n := by
  induction l with
  | nil => simp [nestBranches]
  | cons a l ih =>
    obtain ⟨m, t⟩ := a
    simp only [nestBranches]
    exact Nat.max_le.2 ⟨Nat.max_le.2 (h (m, t) (by simp)), ih fun t ht => h t (by simp [ht])⟩
theorem nestEntries_le {n : Nat} {l : List LetEntry} (h : ∀ t ∈ l, nestEntry t ≤ n) :
    nestEntries l ≤ n := by
  induction l with
  | nil => simp [nestEntries]
  | cons a l ih =>
    simp only [nestEntries]
    exact Nat.max_le.2 ⟨h a (by simp), ih fun t ht => h t (by simp [ht])⟩

/-! ### What a parser returns -/

/-- Every value `p` returns satisfies `P`. -/
def Rt (P : α → Prop) (p : Parser α) : Prop := ∀ s v r, p s = .ok v r → P v

theorem rt_triv (p : Parser α) : Rt (fun _ => True) p := fun _ _ _ _ => trivial
theorem Rt.imp {P Q : α → Prop} {p : Parser α} (h : Rt P p) (hi : ∀ v, P v → Q v) : Rt Q p :=
  fun s v r e => hi v (h s v r e)
theorem rt_pure {P : α → Prop} {v : α} (h : P v) : Rt P (pure v : Parser α) := fun s u r e => by
  obtain ⟨rfl, -⟩ := pure_eq_ok.1 e
  exact h
theorem rt_fail {P : α → Prop} : Rt P (Parser.fail : Parser α) := fun _ _ _ e => by cases e
theorem rt_bind {Q : α → Prop} {P : β → Prop} {p : Parser α} {f : α → Parser β} (hp : Rt Q p)
    (hf : ∀ v, Q v → Rt P (f v)) : Rt P (p >>= f) := fun s u r e => by
  obtain ⟨a, r1, h1, h2⟩ := bind_eq_ok.1 e
  exact hf a (hp s a r1 h1) r1 u r h2
theorem rt_any {P : β → Prop} {p : Parser α} {f : α → Parser β} (hf : ∀ v, Rt P (f v)) :
    Rt P (p >>= f) := rt_bind (rt_triv p) fun v _ => hf v
theorem rt_alt {P : α → Prop} {p q : Parser α} (hp : Rt P p) (hq : Rt P q) :
    Rt P (p </> q) := fun s u r e => by
  rcases alt_eq_ok.1 e with h | ⟨-, h⟩
  · exact hp s u r h
  · exact hq s u r h
theorem rt_pmap {Q : α → Prop} {P : β → Prop} {p : Parser α} {f : α → β} (hp : Rt Q p)
    (hf : ∀ v, Q v → P (f v)) : Rt P (pmap p f) := rt_bind hp fun v h => rt_pure (hf v h)
theorem rt_map {P : β → Prop} {p : Parser α} {f : α → β} (hf : ∀ v, P (f v)) :
    Rt P (pmap p f) := rt_pmap (rt_triv p) fun v _ => hf v
theorem rt_opt {P : α → Prop} {p : Parser α} (hp : Rt P p) :
    Rt (fun o => ∀ v, o = some v → P v) (opt p) := fun s o r e => by
  rcases opt_eq_ok.1 e with ⟨v, h, rfl⟩ | ⟨-, rfl, -⟩
  · rintro _ h2; cases h2; exact hp s _ r h
  · rintro _ h; cases h
theorem rt_preceded {P : β → Prop} {p : Parser α} {q : Parser β} (hq : Rt P q) :
    Rt P (preceded p q) := rt_any fun _ => hq
theorem rt_delimited {P : β → Prop} {p : Parser α} {q : Parser β} {t : Parser γ} (hq : Rt P q) :
    Rt P (delimited p q t) :=
  rt_any fun _ => rt_bind hq fun _ h => rt_any fun _ => rt_pure h

theorem rt_many0Loop {P : α → Prop} {p : Parser α} (hp : Rt P p) (n : Nat) :
    Rt (fun l => ∀ v ∈ l, P v) (many0Loop p n) := by
  induction n with
  | zero => intro s v r e; cases e
  | succ n ih =>
    intro s l r e
    simp only [many0Loop] at e
    cases h : p s with
    | err => simp only [h] at e; cases e; simp
    | panic => simp only [h] at e; cases e
    | div => simp only [h] at e; cases e
    | ok v t =>
      simp only [h] at e
      split at e
      · cases e; simp
      · obtain ⟨vs, r', h1, h2⟩ := andThen_eq_ok.1 e
        cases h2
        intro x hx
        rcases List.mem_cons.1 hx with rfl | hx
        · exact hp s _ t h
        · exact ih t vs _ h1 x hx
theorem rt_many0 {P : α → Prop} {p : Parser α} (hp : Rt P p) :
    Rt (fun l => ∀ v ∈ l, P v) (many0 p) := fun s v r e => rt_many0Loop hp _ s v r e

theorem rt_sepLoop {P : α → Prop} {sep : Parser β} {p : Parser α} (hp : Rt P p) (n : Nat) :
    Rt (fun l => ∀ v ∈ l, P v) (sepLoop sep p n) := by
  induction n with
  | zero => intro s v r e; cases e
  | succ n ih =>
    intro s l r e
    simp only [sepLoop] at e
    cases h : sep s with
    | err => simp only [h] at e; cases e; simp
    | panic => simp only [h] at e; cases e
    | div => simp only [h] at e; cases e
    | ok u t =>
      simp only [h] at e
      split at e
      · cases e; simp
      · cases h' : p t with
        | err => simp only [h'] at e; cases e; simp
        | panic => simp only [h'] at e; cases e
        | div => simp only [h'] at e; cases e
        | ok v t' =>
          simp only [h'] at e
          split at e
          · cases e; simp
          · obtain ⟨vs, r', h1, h2⟩ := andThen_eq_ok.1 e
            cases h2
            intro x hx
            rcases List.mem_cons.1 hx with rfl | hx
            · exact hp t _ t' h'
            · exact ih t' vs _ h1 x hx

theorem rt_sepNonemptyList {P : α → Prop} {sep : Parser β} {p : Parser α} (hp : Rt P p) :
    Rt (fun l => ∀ v ∈ l, P v) (sepNonemptyList sep p) := fun s l r e => by
  simp only [sepNonemptyList] at e
  obtain ⟨v, t, h, e⟩ := andThen_eq_ok.1 e
  split at e
  · cases e
  · obtain ⟨vs, r', h1, h2⟩ := andThen_eq_ok.1 e
    cases h2
    intro x hx
    rcases List.mem_cons.1 hx with rfl | hx
    · exact hp s _ t h
    · exact rt_sepLoop hp _ t vs _ h1 x hx

theorem rt_sepList {P : α → Prop} {sep : Parser β} {p : Parser α} (hp : Rt P p) :
    Rt (fun l => ∀ v ∈ l, P v) (sepList sep p) := fun s l r e => by
  simp only [sepList] at e
  cases h : p s with
  | err => simp only [h] at e; cases e; simp
  | panic => simp only [h] at e; cases e
  | div => simp only [h] at e; cases e
  | ok v t =>
    simp only [h] at e
    split at e
    · cases e
    · obtain ⟨vs, r', h1, h2⟩ := andThen_eq_ok.1 e
      cases h2
      intro x hx
      rcases List.mem_cons.1 hx with rfl | hx
      · exact hp s _ t h
      · exact rt_sepLoop hp _ t vs _ h1 x hx

/-! ### Types -/

structure RtTy (k : Nat) (R : TyRec) : Prop where
  ty : ∀ ind, Rt (fun t => nestTy t ≤ k) (R.type_ ind)
  ann : ∀ ind, Rt (fun t => nestTy t ≤ k) (R.typeAnnotation ind)

section
variable {k : Nat} {R : TyRec} (h : RtTy k R) (ind : Nat)

theorem rt_typeVariable (k : Nat) : Rt (fun t => nestTy t ≤ k + 1) typeVariable :=
  rt_any fun _ => rt_any fun _ => rt_pure (by simp [nestTy])
theorem rt_typeConstant (k : Nat) : Rt (fun t => nestTy t ≤ k + 1) typeConstant :=
  rt_map fun _ => by simp [nestTy, nestTys]

include h

theorem rt_typeRecordPairs : Rt (fun l => nestTyFields l ≤ k) (typeRecordPairs R ind) :=
  (rt_sepList (P := fun t => nestTy t.2 ≤ k) (rt_any fun _ => rt_any fun _ => rt_any fun _ => rt_any fun _ =>
    rt_bind (h.ann ind) fun _ h => rt_pure h)).imp fun _ h => nestTyFields_le h

theorem rt_typeBrackets : Rt (fun t => nestTy t ≤ k + 1)
    (typeRecordConstructor R ind </> typeRecord R ind </> typeTuple R ind </> typeParens R ind) := by
  refine rt_alt ?_ (rt_alt ?_ (rt_alt ?_ ?_))
  · exact rt_delimited (rt_any fun _ => rt_any fun _ => rt_any fun _ => rt_any fun _ =>
      rt_any fun _ => rt_bind (rt_typeRecordPairs h ind) fun _ h => rt_any fun _ =>
      rt_pure (by simp only [nestTy]; omega))
  · exact rt_delimited (rt_pmap (rt_typeRecordPairs h ind) fun _ h => by simp only [nestTy]; omega)
  · exact rt_pmap (rt_delimited (rt_sepList (h.ty ind))) fun _ h => by
      have := nestTys_le h
      simp only [nestTy]; omega
  · exact rt_delimited ((h.ann ind).imp fun _ h => by omega)

theorem rt_typeF : Rt (fun t => nestTy t ≤ k + 1) (typeF R ind) := by
  refine rt_alt ?_ (rt_alt (rt_typeVariable k) (rt_typeBrackets h ind))
  refine rt_any fun _ => rt_bind (rt_many0 (P := fun t => nestTy t ≤ k + 1) (rt_any fun i => ?_))
    fun _ h => rt_pure (by have := nestTys_le h; simp only [nestTy]; omega)
  exact rt_alt (rt_typeVariable k) (rt_alt (rt_typeConstant k) (rt_typeBrackets h i))

omit h in
theorem nest_foldl {n : Nat} (l : List Ty) (a : Ty) (ha : nestTy a ≤ n) (hl : ∀ t ∈ l, nestTy t ≤ n) :
    nestTy (l.foldl (fun app entry => .TypeApplication entry app) a) ≤ n := by
  induction l generalizing a with
  | nil => exact ha
  | cons b l ih =>
    apply ih
    · simp only [nestTy]
      exact Nat.max_le.2 ⟨hl b (by simp), ha⟩
    · exact fun t ht => hl t (by simp [ht])

theorem rt_typeAnnotationF : Rt (fun t => nestTy t ≤ k + 1) (typeAnnotationF R ind) := by
  refine rt_bind (rt_sepNonemptyList (rt_typeF h ind)) fun v hv => ?_
  split
  · exact rt_fail
  · split
    · intro s t r e
      obtain ⟨e, -⟩ := index_eq_ok.1 e
      exact hv t (List.mem_of_getElem? e)
    · have hr : ∀ t ∈ v.reverse, nestTy t ≤ k + 1 := fun t ht => hv t (List.mem_reverse.1 ht)
      generalize v.reverse = w at hr ⊢
      match w with
      | [] => exact rt_fail
      | [_] => exact rt_fail
      | b :: a :: w =>
        refine rt_pure (nest_foldl w _ ?_ fun t ht => hr t (by simp [ht]))
        simp only [nestTy]
        exact Nat.max_le.2 ⟨hr a (by simp), hr b (by simp)⟩
end

theorem rt_tyN (n : Nat) : RtTy n (tyN n) := by
  induction n with
  | zero => exact ⟨fun _ s v r e => (by cases e), fun _ s v r e => (by cases e)⟩
  | succ n ih => exact ⟨fun i => rt_typeF ih i, fun i => rt_typeAnnotationF ih i⟩

/-! ### Expressions -/

section
variable {k : Nat} {R : ExprRec} (h : ∀ ind, Rt (fun e => nest e ≤ k) (R ind)) (ind : Nat)

theorem rt_variableP (k : Nat) : Rt (fun e => nest e ≤ k + 1) variableP :=
  rt_alt (rt_map fun _ => by simp [nest]) (rt_alt (rt_map fun _ => by simp [nest])
    (rt_map fun _ => by simp [nest]))

theorem rt_simplifiedRecord (k : Nat) : Rt (fun e => nest e ≤ k + 1) simplifiedRecord :=
  rt_pmap (rt_delimited (rt_sepList (P := fun f => ∃ x, f.2 = .Variable x)
    (rt_any fun _ => rt_any fun _ => rt_any fun _ => rt_pure ⟨_, rfl⟩))) fun _ h => by
      have := nestFields_vars h
      simp only [nest]; omega

include h

theorem rt_tuple : Rt (fun e => nest e ≤ k + 1) (tuple R ind) :=
  rt_pmap (rt_delimited (rt_sepList (rt_delimited (h ind)))) fun _ h => by
    have := nests_le h
    simp only [nest]; omega

theorem rt_list : Rt (fun e => nest e ≤ k + 1) (list R ind) :=
  rt_pmap (rt_delimited (rt_opt (rt_sepList (h ind)))) fun o h => by
    simp only [nest]
    cases o with
    | none => simp [nests]
    | some l =>
      have := nests_le (h l rfl)
      simp only [Option.getD_some]; omega

theorem rt_record : Rt (fun e => nest e ≤ k + 1) (record R ind) :=
  rt_pmap (rt_delimited (rt_sepList (P := fun f => nest f.2 ≤ k)
    (rt_any fun _ => rt_any fun _ => rt_bind (h ind) fun _ h => rt_pure h))) fun _ h => by
      have := nestFields_le h
      simp only [nest]; omega

theorem rt_recordUpdate : Rt (fun e => nest e ≤ k + 1) (recordUpdate R ind) :=
  rt_delimited (rt_any fun _ => rt_any fun _ => rt_any fun _ => rt_any fun _ =>
    rt_bind (rt_sepList (P := fun f => nest f.2 ≤ k) (rt_any fun _ => rt_any fun _ =>
      rt_any fun _ => rt_any fun _ => rt_bind (h ind) fun _ h => rt_pure h)) fun _ h => rt_pure (by
        have := nestFields_le h
        simp only [nest]; omega))

theorem rt_termF : Rt (fun e => nest e ≤ k + 1) (termF R ind) := by
  refine rt_alt ?_ <| rt_alt (rt_variableP k) <| rt_alt ?_ <| rt_alt ?_ <| rt_alt ?_ <|
    rt_alt ?_ <| rt_alt ?_ <| rt_alt ?_ <| rt_alt (rt_list h ind) <| rt_alt (rt_tuple h ind) <|
    rt_alt (rt_recordUpdate h ind) <| rt_alt (rt_record h ind) <| rt_simplifiedRecord k
  · exact rt_any fun _ => rt_any fun _ => rt_pure (by simp [nest])
  · exact rt_any fun _ => rt_any fun _ => rt_pure (by simp [nest])
  · exact rt_map fun _ => by simp [nest]
  · exact rt_any fun _ => rt_any fun _ => rt_any fun _ => rt_any fun _ => rt_pure (by simp [nest])
  · exact rt_any fun _ => rt_any fun _ => rt_pure (by simp [nest])
  · exact rt_map fun _ => by simp [nest]
  · exact rt_delimited ((h ind).imp fun _ h => by omega)

theorem rt_lambda : Rt (fun e => nest e ≤ k + 1) (lambda R ind) :=
  rt_any fun _ => rt_bind (rt_sepNonemptyList (rt_termF h ind)) fun _ ha => rt_any fun _ =>
    rt_any fun _ => rt_any fun i => rt_bind (h i) fun _ hb => rt_pure (by
      have := nests_le ha
      simp only [nest]; omega)

omit h in
theorem nest_foldlApp {n : Nat} (l : List Expr) (a : Expr) (ha : nest a ≤ n)
    (hl : ∀ t ∈ l, nest t ≤ n) :
    nest (l.foldl (fun app entry => .Application app entry) a) ≤ n := by
  induction l generalizing a with
  | nil => exact ha
  | cons b l ih =>
    apply ih
    · simp only [nest]
      exact Nat.max_le.2 ⟨ha, hl b (by simp)⟩
    · exact fun t ht => hl t (by simp [ht])

theorem rt_applicationOrVar : Rt (fun e => nest e ≤ k + 1) (applicationOrVar R ind) := by
  refine rt_bind (rt_sepList (rt_termF h ind)) fun v hv => ?_
  split
  · exact rt_fail
  · split
    · intro s t r e
      obtain ⟨e, -⟩ := index_eq_ok.1 e
      exact hv t (List.mem_of_getElem? e)
    · intro s t r e
      obtain ⟨a, r1, h1, e⟩ := bind_eq_ok.1 e
      obtain ⟨b, r2, h2, e⟩ := bind_eq_ok.1 e
      obtain ⟨rfl, -⟩ := pure_eq_ok.1 e
      have ha := hv a (List.mem_of_getElem? (index_eq_ok.1 h1).1)
      have hb := hv b (List.mem_of_getElem? (index_eq_ok.1 h2).1)
      exact nest_foldlApp _ _ (by simp only [nest]; omega) fun t ht => hv t (List.mem_of_mem_drop ht)

theorem rt_functionF : Rt (fun f => nestEntry (.LetFunction f) ≤ k + 1) (functionF R ind) :=
  rt_any fun _ => rt_bind (Q := fun d => ∀ o, nestEntry (.LetFunction (.mk o d)) ≤ k + 1)
    (rt_any fun _ => rt_bind (rt_many0 (rt_preceded (rt_termF h ind))) fun _ ha =>
      rt_any fun _ => rt_any fun _ => rt_any fun i => rt_bind (h i) fun _ hb => rt_pure fun _ => by
        have := nests_le ha
        simp only [nestEntry]; omega)
    fun _ hd => rt_pure (hd _)

theorem rt_letEntry : Rt (fun e => nestEntry e ≤ k + 1) (letEntry R ind) := by
  refine rt_alt ?_ (rt_pmap (rt_functionF h ind) fun _ h => h)
  refine rt_bind (Q := fun e => nest e ≤ k + 1) ?_ fun _ ht => rt_any fun _ => rt_any fun _ =>
    rt_any fun i => rt_bind (h i) fun _ hb => rt_pure (by simp only [nestEntry]; omega)
  exact rt_alt (rt_variableP k) (rt_alt (rt_list h ind) (rt_alt (rt_tuple h ind)
    (rt_simplifiedRecord k)))

theorem rt_letExpression : Rt (fun e => nest e ≤ k + 1) (letExpression R ind) :=
  rt_any fun _ => rt_any fun i => rt_bind (rt_sepNonemptyList (rt_letEntry h i)) fun _ he =>
    rt_any fun _ => rt_any fun _ => rt_any fun _ => rt_bind (h ind) fun _ hb => rt_pure (by
      have := nestEntries_le he
      simp only [nest]; omega)

theorem rt_caseExpression : Rt (fun e => nest e ≤ k + 1) (caseExpression R ind) :=
  rt_any fun _ => rt_any fun _ => rt_bind (h ind) fun _ he => rt_any fun _ => rt_any fun _ =>
    rt_any fun i => rt_bind (rt_sepNonemptyList (P := fun b => nest b.1 ≤ k ∧ nest b.2 ≤ k)
      (rt_bind (h i) fun _ ha => rt_any fun _ => rt_any fun _ => rt_any fun j =>
        rt_bind (h j) fun _ hb => rt_pure ⟨ha, hb⟩)) fun _ hb => rt_pure (by
      have := nestBranches_le hb
      simp only [nest]; omega)

theorem rt_ifExpression : Rt (fun e => nest e ≤ k + 1) (ifExpression R ind) :=
  rt_any fun _ => rt_any fun _ => rt_bind (h ind) fun _ ha => rt_any fun _ => rt_any fun _ =>
    rt_any fun i => rt_bind (h i) fun _ hb => rt_any fun _ => rt_any fun _ =>
    rt_any fun j => rt_bind (h j) fun _ hc => rt_pure (by simp only [nest]; omega)

theorem rt_binary : Rt (fun e => nest e ≤ k + 1) (binary R ind) :=
  rt_bind (rt_applicationOrVar h ind) fun a ha =>
    rt_bind (rt_opt (P := fun x => nest x.2 ≤ k) (rt_any fun _ => rt_any fun _ => rt_any fun _ =>
      rt_bind (h ind) fun _ hb => rt_pure hb)) fun o ho => rt_pure (by
        cases o with
        | none => exact ha
        | some x =>
          have := ho x rfl
          simp only [nest]; omega)

theorem rt_expressionF : Rt (fun e => nest e ≤ k + 1) (expressionF R ind) :=
  rt_alt (rt_binary h ind) (rt_alt (rt_letExpression h ind) (rt_alt (rt_caseExpression h ind)
    (rt_alt (rt_ifExpression h ind) (rt_lambda h ind))))
end

theorem rt_exprN (n : Nat) (ind : Nat) : Rt (fun e => nest e ≤ n) (exprN n ind) := by
  induction n generalizing ind with
  | zero => exact fun s v r e => (by cases e)
  | succ n ih => exact rt_expressionF ih ind

end ElmParser
