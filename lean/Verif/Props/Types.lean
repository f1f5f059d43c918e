import Verif.Proofs.TypeComplete

/-! Properties of the type parser: C17, C19, C22, and the type parts of C21, C25, C28, C37. -/
namespace ElmParser
open Spec

/-! ### A type text used in the examples -/

/-- `List a` -/
theorem ex_list_a (ind : Nat) : TySrc ind (.ty (.TypeConstructor [c!"List"] [.TypeVariable c!"a"])) c!"List a" :=
  .con (cs := c!" a") (by simp) (by simp only [List.mem_singleton, forall_eq]; exact ⟨'L', c!"ist", rfl, by decide, by decide⟩)
    (.args (g := c!" ") (c := c!"a") (cs := []) (gapTxt_space ind .GT)
      (.parAtom (.var ⟨'a', [], rfl, by decide, by decide⟩)) .args0)

/-- `b` -/
theorem ex_b (ind : Nat) : TySrc ind (.ty (.TypeVariable c!"b")) c!"b" :=
  .tyAtom (.var ⟨'b', [], rfl, by decide, by decide⟩)

/-- ` -- note⏎  `: a gap with a comment and a line break. -/
theorem ex_gap : GapTxt 1 .GTE 2 c!" -- note\n  " :=
  ⟨[⟨1, some c!" note"⟩], 2, rfl, by decide, by simp [Line.ok], .inr ⟨by simp, rfl, by decide⟩⟩

/-- `( List a\n  -> b)` over two lines. -/
theorem ex_arrow : TySrc 1 (.ann (.TypeApplication (.TypeConstructor [c!"List"] [.TypeVariable c!"a"])
    (.TypeVariable c!"b"))) c!"List a\n  -> b" :=
  .annArrow (c := c!"List a") (w1 := c!"\n  ") (w2 := c!" ") (d := c!"b") (ex_list_a 1)
    ⟨by simp, by decide⟩ ⟨by simp, by decide⟩ (.annTy (ex_b 1))

/-! ### C17 -/

theorem arrowSrc_ann {ind : Nat} {t : Ty} {ts : List Ty} {c : Str} (h : ArrowSrc ind (t :: ts) c) :
    TySrc ind (.ann (rightNested t ts)) c := by
  generalize hl : t :: ts = l at h
  induction h generalizing t ts with
  | one h => cases hl; exact .annTy h
  | @cons u us w1 w2 c d h1 h2 h3 h4 ih =>
    simp only [List.cons.injEq] at hl
    obtain ⟨rfl, rfl⟩ := hl
    cases ts with
    | nil => cases h4
    | cons u us => exact .annArrow h1 h2 h3 (ih rfl)

/-- C17: `t0 -> t1 -> ... -> tn` parses to the right-nested tree. -/
theorem C17_right_nested {ind : Nat} {t : Ty} {ts : List Ty} {c r : Str} (h : ArrowSrc ind (t :: ts) c)
    (hr : TyStop ind r) : typeAnnotation ind (c ++ r) = .ok (rightNested t ts) r :=
  typeAnnotation_complete (arrowSrc_ann h) hr

example : typeAnnotation 0 c!"b -> b -> List a" = .ok (.TypeApplication (.TypeVariable c!"b")
    (.TypeApplication (.TypeVariable c!"b") (.TypeConstructor [c!"List"] [.TypeVariable c!"a"]))) [] :=
  C17_right_nested (t := .TypeVariable c!"b") (c := c!"b -> b -> List a") (r := [])
    (ts := [.TypeVariable c!"b", .TypeConstructor [c!"List"] [.TypeVariable c!"a"]])
    (.cons (c := c!"b") (d := c!"b -> List a") (ex_b 0) spaceNl_space spaceNl_space
      (.cons (c := c!"b") (ex_b 0) spaceNl_space spaceNl_space (.one (ex_list_a 0)))) (tyStop_nil 0)

/-- C17: every annotation the parser accepts is such a chain, right-nested. -/
theorem C17_only {ind : Nat} {s r : Str} {t : Ty} (h : typeAnnotation ind s = .ok t r) :
    ∃ u us c, s = c ++ r ∧ ArrowSrc ind (u :: us) c ∧ t = rightNested u us := by
  obtain ⟨c, rfl, hc⟩ := typeAnnotation_sound h
  refine (?_ : ∃ u us, ArrowSrc ind (u :: us) c ∧ t = rightNested u us).elim fun u ⟨us, h1, h2⟩ =>
    ⟨u, us, c, rfl, h1, h2⟩
  clear h
  generalize hk : TyCat.ann t = k at hc
  induction hc generalizing t with
  | annTy h => cases hk; exact ⟨_, [], .one h, rfl⟩
  | annArrow h1 h2 h3 h4 _ ih =>
    cases hk
    obtain ⟨u, us, h5, rfl⟩ := ih rfl
    exact ⟨_, u :: us, .cons h1 h2 h3 h5, rfl⟩
  | _ => cases hk
example := C17_only (ind := 0) (s := c!"(a -> List b) -> { x : Int } -> c\n=") rfl

/-- C17: the code that assembles the tree never fails: an annotation is rejected
only if there is no type at its start. -/
theorem C17_no_internal_error (ind : Nat) (s : Str) :
    (typeAnnotation ind s = .err ↔ type_ ind s = .err) ∧ typeAnnotation ind s ≠ .panic :=
  ⟨typeAnnotation_err_iff, by
    rcases err_or_ok (fun k => cons_typeAnnotation k ind) s with h | ⟨v, r, h, -⟩ <;> rw [h] <;> simp⟩

/-- Not every text starts with a type, and a chain that breaks off is cut at the last type. -/
example : type_ 0 c!"-> a" = .err ∧ typeAnnotation 0 c!"a -> b -> " =
    .ok (.TypeApplication (.TypeVariable c!"a") (.TypeVariable c!"b")) c!" -> " := ⟨rfl, rfl⟩

/-! ### C19 -/

/-- C19: the types the parser returns are well formed. -/
theorem C19_type {ind : Nat} {s r : Str} {t : Ty} (h : type_ ind s = .ok t r) : WFTy t := by
  obtain ⟨c, -, hc⟩ := type_sound h
  exact tySrc_wf hc
example := C19_type (ind := 0) (s := c!"Dict (Maybe a) { x : Int } -> c") rfl
theorem C19_annotation {ind : Nat} {s r : Str} {t : Ty} (h : typeAnnotation ind s = .ok t r) : WFTy t := by
  obtain ⟨c, -, hc⟩ := typeAnnotation_sound h
  exact tySrc_wf hc
example := C19_annotation (ind := 0) (s := c!"(a -> List b) -> { x : Int } -> c\n=") rfl
theorem C19_constructor {ind : Nat} {s r : Str} {t : Ty} (h : typeConstructor ind s = .ok t r) :
    WFTy t ∧ ∃ ns ts, t = .TypeConstructor ns ts := by
  obtain ⟨ns, ts, c, rfl, -, h1, h2, hc⟩ := typeConstructor_sound h
  exact ⟨tySrc_wf (.con h1 h2 hc), ns, ts, rfl⟩
example := C19_constructor (ind := 0) (s := c!"Dict (Maybe a) { x : Int } -> c") rfl

example : typeAnnotation 0 c!"{ a | x : Dict.Dict k (List v) }" =
    .ok (.TypeRecordConstructor (.TypeVariable c!"a") [(c!"x", .TypeConstructor [c!"Dict", c!"Dict"]
      [.TypeVariable c!"k", .TypeTuple [.TypeConstructor [c!"List"] [.TypeVariable c!"v"]]])]) [] := rfl

/-- Well-formedness is a real restriction. -/
example : ¬ WFTy (.TypeRecordConstructor (.TypeTuple []) [(c!"x", .TypeVariable c!"a")]) := by
  intro h; cases h
example : ¬ WFTy (.TypeConstructor [c!"Maybe"] [.TypeConstructor [c!"List"] [.TypeVariable c!"a"]]) := by
  intro h
  cases h with
  | con _ _ _ h => exact absurd (h _ (List.mem_singleton.2 rfl)) (by simp [ArgShape])
example : ¬ WFTy (.TypeVariable c!"A") := by
  intro h
  cases h with
  | var h => obtain ⟨c, t, e, h, -⟩ := h; cases e; exact absurd h (by decide)

/-! ### C21 (types) -/

/-- C21, types: the text consumed is a layout of the returned tree: exactly its names and
brackets in order, with gaps between them. -/
theorem C21_type {ind : Nat} {s r : Str} {t : Ty} (h : type_ ind s = .ok t r) :
    ∃ c, s = c ++ r ∧ TySrc ind (.ty t) c := type_sound h
example := C21_type (ind := 0) (s := c!"Dict (Maybe a) { x : Int } -> c") rfl
theorem C21_typeAnnotation {ind : Nat} {s r : Str} {t : Ty} (h : typeAnnotation ind s = .ok t r) :
    ∃ c, s = c ++ r ∧ TySrc ind (.ann t) c := typeAnnotation_sound h
example := C21_typeAnnotation (ind := 0) (s := c!"(a -> List b) -> { x : Int } -> c\n=") rfl

example : typeAnnotation 1 c!"List a\n  -> b" = .ok (.TypeApplication
    (.TypeConstructor [c!"List"] [.TypeVariable c!"a"]) (.TypeVariable c!"b")) [] := rfl

/-! ### C22 -/

/-- C22: every layout of a type parses to that type and stops at its end. -/
theorem C22_type {ind : Nat} {t : Ty} {c r : Str} (h : TySrc ind (.ty t) c) (hr : TyStop ind r) :
    type_ ind (c ++ r) = .ok t r := type_complete h hr
theorem C22_annotation {ind : Nat} {t : Ty} {c r : Str} (h : TySrc ind (.ann t) c) (hr : TyStop ind r) :
    typeAnnotation ind (c ++ r) = .ok t r := typeAnnotation_complete h hr

/-- The rest in the example is the next line at column 0. -/
example : typeAnnotation 1 (c!"List a\n  -> b" ++ c!"\n\nb = 1") = .ok (.TypeApplication
    (.TypeConstructor [c!"List"] [.TypeVariable c!"a"]) (.TypeVariable c!"b")) c!"\n\nb = 1" :=
  C22_annotation ex_arrow ⟨next_cons.2 (by decide), .inr ⟨[⟨0, none⟩, ⟨0, none⟩], ⟨0, none⟩, c!"b = 1",
    ⟨rfl, by decide, by simp [Line.ok], by simp [Line.ok], .inl ⟨rfl, next_cons.2 (by decide), by simp⟩⟩,
    by simp, .inr ⟨by simp, by decide⟩⟩⟩

/-- C22: every well-formed type is the result of some text, at every indentation. -/
theorem C22_exists {t : Ty} (h : WFTy t) : ∃ c, ∀ ind r, TyStop ind r →
    typeAnnotation ind (c ++ r) = .ok t r := by
  obtain ⟨⟨c, hc⟩, -⟩ := wfTy_text h
  exact ⟨c, fun ind r hr => C22_annotation (hc ind) hr⟩

/-- C22: the types the parser can return are exactly the well-formed ones. -/
theorem C22_exactly (t : Ty) : WFTy t ↔ ∃ ind s r, typeAnnotation ind s = .ok t r := by
  constructor
  · intro h
    obtain ⟨c, hc⟩ := C22_exists h
    exact ⟨0, _, [], hc 0 [] (tyStop_nil 0)⟩
  · rintro ⟨ind, s, r, h⟩
    exact C19_annotation h

example : WFTy (.TypeApplication (.TypeTuple [.TypeVariable c!"a"]) (.TypeRecord [(c!"x", .TypeVariable c!"b")])) :=
  .arrow (.tuple (by
      simp only [List.mem_singleton, forall_eq]
      exact .var ⟨'a', [], rfl, by decide, by decide⟩))
    (.record (by
        simp only [List.mem_singleton, forall_eq]
        exact .inr ⟨⟨'x', [], rfl, by decide, by decide⟩, by decide⟩)
      (by simp only [List.mem_singleton, forall_eq]; exact .var ⟨'b', [], rfl, by decide, by decide⟩))

/-! ### C25 (types) -/

/-- C25, types: a text is a layout of at most one type. -/
theorem C25_type_unambiguous {ind : Nat} {t u : Ty} {c : Str} (h : TySrc ind (.ann t) c)
    (h' : TySrc ind (.ann u) c) : t = u := by
  have e := C22_annotation h (tyStop_nil ind)
  rw [C22_annotation h' (tyStop_nil ind)] at e
  simp only [Res.ok.injEq] at e
  exact e.1.symm

/-- C25, types: two layouts parse to the same tree iff they are layouts of the same tree. -/
theorem C25_type {i j : Nat} {t u : Ty} {c d r r' : Str} (hc : TySrc i (.ann t) c) (hd : TySrc j (.ann u) d)
    (hr : TyStop i r) (hr' : TyStop j r') :
    (∃ v, typeAnnotation i (c ++ r) = .ok v r ∧ typeAnnotation j (d ++ r') = .ok v r') ↔ t = u := by
  rw [C22_annotation hc hr, C22_annotation hd hr']
  constructor
  · rintro ⟨v, h1, h2⟩
    simp only [Res.ok.injEq, and_true] at h1 h2
    rw [h1, h2]
  · rintro rfl; exact ⟨t, rfl, rfl⟩

/-- Two layouts of one type. -/
example : ∃ v, typeAnnotation 1 (c!"List a\n  -> b" ++ []) = .ok v [] ∧
    typeAnnotation 1 (c!"List a -> b" ++ []) = .ok v [] :=
  (C25_type ex_arrow (.annArrow (c := c!"List a") (w1 := c!" ") (w2 := c!" ") (d := c!"b") (ex_list_a 1)
    spaceNl_space spaceNl_space (.annTy (ex_b 1))) (tyStop_nil 1) (tyStop_nil 1)).2 rfl

/-! ### C28 (types) -/

/-- C28, types: a parenthesised type that is not a function type is a one-element tuple,
with or without spaces inside. -/
theorem C28_type_tuple {ind : Nat} {t : Ty} {g1 c g2 : Str} (h1 : OptGapTxt ind .GTE g1)
    (h : TySrc ind (.ty t) c) (h2 : OptGapTxt ind .GTE g2) (r : Str) :
    type_ ind (c!"(" ++ g1 ++ c ++ g2 ++ c!")" ++ r) = .ok (.TypeTuple [t]) r := by
  have := typeClosed_complete (.tuple h1 h .items0 h2) (by simp) r
  simpa using this

/-- C28, types: around a function type the parentheses leave no trace. -/
theorem C28_type_arrow {ind : Nat} {t u : Ty} {g1 c w1 w2 d g2 : Str} (h1 : OptGapTxt ind .GTE g1)
    (hc : TySrc ind (.ty t) c) (hw1 : SpaceNl w1) (hw2 : SpaceNl w2) (hd : TySrc ind (.ann u) d)
    (h2 : OptGapTxt ind .GTE g2) (r : Str) :
    type_ ind (c!"(" ++ g1 ++ c ++ w1 ++ c!"->" ++ w2 ++ d ++ g2 ++ c!")" ++ r) =
      .ok (.TypeApplication t u) r :=
  typeClosed_complete (.parens h1 hc hw1 hw2 hd h2) (by simp) r

example : type_ 0 c!"(List a)x" = .ok (.TypeTuple [.TypeConstructor [c!"List"] [.TypeVariable c!"a"]]) c!"x" :=
  C28_type_tuple (g1 := []) (c := c!"List a") (g2 := []) (.inl rfl) (ex_list_a 0) (.inl rfl) c!"x"
example : type_ 1 c!"(List a\n  -> b)" = .ok (.TypeApplication (.TypeConstructor [c!"List"] [.TypeVariable c!"a"])
    (.TypeVariable c!"b")) [] :=
  C28_type_arrow (g1 := []) (c := c!"List a") (w1 := c!"\n  ") (w2 := c!" ") (d := c!"b") (g2 := [])
    (.inl rfl) (ex_list_a 1) ⟨by simp, by decide⟩ spaceNl_space (.annTy (ex_b 1)) (.inl rfl) []

/-! ### C37 (types) -/

/-- C37, types: what follows a type in brackets does not matter. -/
theorem C37_type {ind : Nat} {s r : Str} {t : Ty} (h : type_ ind s = .ok t r)
    (hs : ∃ x, s = '(' :: x ∨ s = '{' :: x) :
    ∃ c, s = c ++ r ∧ ∀ r', type_ ind (c ++ r') = .ok t r' := by
  obtain ⟨c, rfl, hc⟩ := type_sound h
  refine ⟨c, rfl, ?_⟩
  have hh : ∀ x y, c = x :: y → x = '(' ∨ x = '{' := by
    rintro x y rfl
    obtain ⟨z, h | h⟩ := hs <;> simp only [List.cons_append, List.cons.injEq] at h
    · exact .inl h.1
    · exact .inr h.1
  cases hc with
  | con hn hu _ =>
    obtain ⟨x, y, e, hx⟩ := dotted_head hn hu
    rw [e] at hh
    rcases hh x _ rfl with rfl | rfl <;> exact absurd hx (by decide)
  | tyAtom ha =>
    refine typeClosed_complete ha ?_
    rintro n rfl
    cases ha with
    | var hv =>
      obtain ⟨x, y, rfl, hx, -⟩ := hv
      rcases hh x y rfl with rfl | rfl <;> exact absurd hx (by decide)
example := C37_type (ind := 0) (s := c!"{ x : List a } -> b") rfl ⟨_, .inr rfl⟩

example : type_ 0 (c!"{ x : a }" ++ c!".y -> b") = .ok (.TypeRecord [(c!"x", .TypeVariable c!"a")]) c!".y -> b" :=
  rfl
example := C22_type (ind := 0) (r := []) (ex_list_a 0) (tyStop_nil 0)
example := C22_exists (C19_annotation (ind := 0) (s := c!"(a -> List b) -> { x : Int } -> c") rfl)
example := C25_type_unambiguous ex_arrow ex_arrow

end ElmParser
