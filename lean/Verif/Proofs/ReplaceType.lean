import Verif.Proofs.Replace
import Verif.Proofs.TypeComplete

/-! The text of a part of a type can be replaced by the text of any type that can be an argument. -/
namespace ElmParser
open Spec

/-- Somewhere in `c` stands a text of `t`, and any argument in its place gives a text of `C` with the argument. -/
def TyRepl (ind : Nat) (c : Str) (t : Ty) (C : Ty → TyCat) : Prop :=
  ∃ a d b i, c = a ++ (d ++ b) ∧ TySrc i (.ann t) d ∧
    ∀ d' t', TySrc i (.par t') d' → TySrc ind (C t') (a ++ (d' ++ b))

theorem TyRepl.map {ind ind' : Nat} {c c' : Str} {t : Ty} {C C' : Ty → TyCat} (A B : Str)
    (h : TyRepl ind c t C) (hc : c' = A ++ (c ++ B))
    (hm : ∀ x y, TySrc ind (C x) y → TySrc ind' (C' x) (A ++ (y ++ B))) : TyRepl ind' c' t C' := by
  obtain ⟨a, d, b, i, rfl, h1, h2⟩ := h
  refine ⟨A ++ a, d, b ++ B, i, by simp [hc], h1, fun d' t' h => ?_⟩
  have := hm _ _ (h2 d' t' h)
  simpa using this

/-- What is to be shown about a text of each category. -/
def TyGoal (ind : Nat) (c : Str) : TyCat → Prop
  | .atom t => ∀ (K : TyCtx) e, K ≠ .here → t = K.fill e → TyRepl ind c e fun x => .atom (K.fill x)
  | .par t => ∀ (K : TyCtx) e, t = K.fill e → TyRepl ind c e fun x => .par (K.fill x)
  | .ty t => ∀ (K : TyCtx) e, t = K.fill e → TyRepl ind c e fun x => .ty (K.fill x)
  | .ann t => ∀ (K : TyCtx) e, t = K.fill e → TyRepl ind c e fun x => .ann (K.fill x)
  | .args ts => ∀ b (K : TyCtx) a e, ts = b ++ K.fill e :: a → TyRepl ind c e fun x => .args (b ++ K.fill x :: a)
  | .items ts => ∀ b (K : TyCtx) a e, ts = b ++ K.fill e :: a → TyRepl ind c e fun x => .items (b ++ K.fill x :: a)
  | .field f => ∀ n (K : TyCtx) e, f = (n, K.fill e) → TyRepl ind c e fun x => .field (n, K.fill x)
  | .fields fs => ∀ b n (K : TyCtx) a e, fs = b ++ (n, K.fill e) :: a →
      TyRepl ind c e fun x => .fields (b ++ (n, K.fill x) :: a)

theorem ty_of_par {ind : Nat} {t : Ty} {c : Str} (h : TySrc ind (.par t) c) : TySrc ind (.ty t) c := by
  cases h with
  | parAtom h => exact .tyAtom h
  | parConst h1 h2 =>
    have := TySrc.con (ind := ind) h1 h2 .args0
    rwa [List.append_nil] at this

theorem tyRepl_here {ind : Nat} {t : Ty} {c : Str} {C : Ty → TyCat} (h : TySrc ind (.ann t) c)
    (hC : ∀ x y, TySrc ind (.par x) y → TySrc ind (C x) y) : TyRepl ind c t C :=
  ⟨[], c, [], ind, by simp, h, fun d' e' h => by simpa using hC _ _ h⟩

theorem ty_replace {ind : Nat} {k : TyCat} {c : Str} (h : TySrc ind k c) : TyGoal ind c k := by
  induction h with
  | var h => intro K e hh hK; cases K <;> simp [TyCtx.fill] at hK hh
  | @extRecord _ v _ _ g1 g2 g3 g4 _ _ _ _ c cs h1 h2 h3 h4 h5 h6 h7 ih1 ih2 =>
    intro K e hh hK
    cases K with
    | extended v' b n k a =>
      simp only [TyCtx.fill, Ty.TypeRecordConstructor.injEq] at hK
      obtain ⟨rfl, hK⟩ := hK
      rcases cons_ctx hK with ⟨rfl, h, rfl⟩ | ⟨b', rfl, h⟩
      · exact (ih1 n k e h).map (c!"{" ++ g1 ++ v ++ g2 ++ c!"|" ++ g3) (cs ++ g4 ++ c!"}") (by simp) fun x y h => by
          simpa [TyCtx.fill] using TySrc.extRecord h1 h2 h3 h4 h h6 h7
      · exact (ih2 b' n k a e h).map (c!"{" ++ g1 ++ v ++ g2 ++ c!"|" ++ g3 ++ c) (g4 ++ c!"}") (by simp) fun x y h => by
          simpa [TyCtx.fill] using TySrc.extRecord h1 h2 h3 h4 h5 h h7
    | here => exact absurd rfl hh
    | _ => simp [TyCtx.fill] at hK
  | record0 h => intro K e hh hK; cases K <;> simp [TyCtx.fill] at hK hh
  | @record _ _ _ g1 g2 c cs h1 h2 h3 h4 ih1 ih2 =>
    intro K e hh hK
    cases K with
    | record b n k a =>
      simp only [TyCtx.fill, Ty.TypeRecord.injEq] at hK
      rcases cons_ctx hK with ⟨rfl, h, rfl⟩ | ⟨b', rfl, h⟩
      · exact (ih1 n k e h).map (c!"{" ++ g1) (cs ++ g2 ++ c!"}") (by simp) fun x y h => by
          simpa [TyCtx.fill] using TySrc.record h1 h h3 h4
      · exact (ih2 b' n k a e h).map (c!"{" ++ g1 ++ c) (g2 ++ c!"}") (by simp) fun x y h => by
          simpa [TyCtx.fill] using TySrc.record h1 h2 h h4
    | here => exact absurd rfl hh
    | _ => simp [TyCtx.fill] at hK
  | tuple0 h => intro K e hh hK; cases K <;> simp [TyCtx.fill] at hK hh
  | @tuple _ _ _ g1 g2 c cs h1 h2 h3 h4 ih1 ih2 =>
    intro K e hh hK
    cases K with
    | tuple b k a =>
      simp only [TyCtx.fill, Ty.TypeTuple.injEq] at hK
      rcases cons_ctx hK with ⟨rfl, h, rfl⟩ | ⟨b', rfl, h⟩
      · exact (ih1 k e h).map (c!"(" ++ g1) (cs ++ g2 ++ c!")") (by simp) fun x y h => by
          simpa [TyCtx.fill] using TySrc.tuple h1 h h3 h4
      · exact (ih2 b' k a e h).map (c!"(" ++ g1 ++ c) (g2 ++ c!")") (by simp) fun x y h => by
          simpa [TyCtx.fill] using TySrc.tuple h1 h2 h h4
    | here => exact absurd rfl hh
    | _ => simp [TyCtx.fill] at hK
  | @parens _ _ _ g1 g2 w1 w2 c d h1 h2 h3 h4 h5 h6 ih1 ih2 =>
    intro K e hh hK
    cases K with
    | source k u =>
      simp only [TyCtx.fill, Ty.TypeApplication.injEq] at hK
      obtain ⟨hK, rfl⟩ := hK
      exact (ih1 k e hK).map (c!"(" ++ g1) (w1 ++ c!"->" ++ w2 ++ d ++ g2 ++ c!")") (by simp) fun x y h => by
        simpa [TyCtx.fill] using TySrc.parens h1 h h3 h4 h5 h6
    | target t k =>
      simp only [TyCtx.fill, Ty.TypeApplication.injEq] at hK
      obtain ⟨rfl, hK⟩ := hK
      exact (ih2 k e hK).map (c!"(" ++ g1 ++ c ++ w1 ++ c!"->" ++ w2) (g2 ++ c!")") (by simp) fun x y h => by
        simpa [TyCtx.fill] using TySrc.parens h1 h2 h3 h4 h h6
    | here => exact absurd rfl hh
    | _ => simp [TyCtx.fill] at hK
  | parAtom h ih =>
    intro K e hK
    by_cases hh : K = .here
    · subst hh; cases hK; exact tyRepl_here (.annTy (.tyAtom h)) fun _ _ h => h
    · exact (ih K e hh hK).map [] [] (by simp) fun x y h => by simpa using TySrc.parAtom h
  | parConst h1 h2 =>
    intro K e hK
    cases K with
    | here => cases hK; exact tyRepl_here (.annTy (ty_of_par (.parConst h1 h2))) fun _ _ h => h
    | _ => simp [TyCtx.fill] at hK
  | tyAtom h ih =>
    intro K e hK
    by_cases hh : K = .here
    · subst hh; cases hK; exact tyRepl_here (.annTy (.tyAtom h)) fun _ _ h => ty_of_par h
    · exact (ih K e hh hK).map [] [] (by simp) fun x y h => by simpa using TySrc.tyAtom h
  | @con _ ns _ cs h1 h2 h3 ih =>
    intro K e hK
    cases K with
    | here => cases hK; exact tyRepl_here (.annTy (.con h1 h2 h3)) fun _ _ h => ty_of_par h
    | con ns' b k a =>
      simp only [TyCtx.fill, Ty.TypeConstructor.injEq] at hK
      obtain ⟨rfl, hK⟩ := hK
      exact (ih b k a e hK).map (dotted ns) [] (by simp) fun x y h => by simpa [TyCtx.fill] using TySrc.con h1 h2 h
    | _ => simp [TyCtx.fill] at hK
  | args0 => intro b K a e h; simp at h
  | @args _ _ _ _ g c cs h1 h2 h3 ih1 ih2 =>
    intro b K a e hK
    rcases cons_ctx hK with ⟨rfl, h, rfl⟩ | ⟨b', rfl, h⟩
    · exact (ih1 K e h).map g cs (by simp) fun x y h => by simpa using TySrc.args h1 h h3
    · exact (ih2 b' K a e h).map (g ++ c) [] (by simp) fun x y h => by simpa using TySrc.args h1 h2 h
  | items0 => intro b K a e h; simp at h
  | @items _ _ _ g1 g2 c cs h1 h2 h3 h4 ih1 ih2 =>
    intro b K a e hK
    rcases cons_ctx hK with ⟨rfl, h, rfl⟩ | ⟨b', rfl, h⟩
    · exact (ih1 K e h).map (g1 ++ c!"," ++ g2) cs (by simp) fun x y h => by simpa using TySrc.items h1 h2 h h4
    · exact (ih2 b' K a e h).map (g1 ++ c!"," ++ g2 ++ c) [] (by simp) fun x y h => by simpa using TySrc.items h1 h2 h3 h
  | @field _ n _ g1 g2 _ h1 h2 h3 _ ih =>
    intro m K e hK
    simp only [Prod.mk.injEq] at hK
    obtain ⟨rfl, hK⟩ := hK
    exact (ih K e hK).map (n ++ g1 ++ c!":" ++ g2) [] (by simp) fun x y h => by simpa using TySrc.field h1 h2 h3 h
  | fields0 => intro b n K a e h; simp at h
  | @fields _ _ _ g1 g2 c cs h1 h2 h3 h4 ih1 ih2 =>
    intro b n K a e hK
    rcases cons_ctx hK with ⟨rfl, h, rfl⟩ | ⟨b', rfl, h⟩
    · exact (ih1 n K e h).map (g1 ++ c!"," ++ g2) cs (by simp) fun x y h => by simpa using TySrc.fields h1 h2 h h4
    · exact (ih2 b' n K a e h).map (g1 ++ c!"," ++ g2 ++ c) [] (by simp) fun x y h => by simpa using TySrc.fields h1 h2 h3 h
  | annTy h ih => exact fun K e hK => (ih K e hK).map [] [] (by simp) fun x y h => by simpa using TySrc.annTy h
  | @annArrow _ _ _ w1 w2 c d h1 h2 h3 h4 ih1 ih2 =>
    intro K e hK
    cases K with
    | here => cases hK; exact tyRepl_here (.annArrow h1 h2 h3 h4) fun _ _ h => .annTy (ty_of_par h)
    | source k u =>
      simp only [TyCtx.fill, Ty.TypeApplication.injEq] at hK
      obtain ⟨hK, rfl⟩ := hK
      exact (ih1 k e hK).map [] (w1 ++ c!"->" ++ w2 ++ d) (by simp) fun x y h => by
        simpa [TyCtx.fill] using TySrc.annArrow h h2 h3 h4
    | target t k =>
      simp only [TyCtx.fill, Ty.TypeApplication.injEq] at hK
      obtain ⟨rfl, hK⟩ := hK
      exact (ih2 k e hK).map (c ++ w1 ++ c!"->" ++ w2) [] (by simp) fun x y h => by
        simpa [TyCtx.fill] using TySrc.annArrow h1 h2 h3 h
    | _ => simp [TyCtx.fill] at hK

/-- In a list of constructors, an argument of one of them. -/
theorem constructors_replace {ind : Nat} {us : List Ty} {c : Str} (h : ConstructorItems ind us c) {before : List Ty}
    {ns : List Name} {b : List Ty} {K : TyCtx} {a after : List Ty} {t : Ty}
    (hu : us = before ++ .TypeConstructor ns (b ++ K.fill t :: a) :: after) :
    ∃ x d y i, c = x ++ (d ++ y) ∧ TySrc i (.ann t) d ∧ ∀ d' t', TySrc i (.par t') d' →
      ConstructorItems ind (before ++ .TypeConstructor ns (b ++ K.fill t' :: a) :: after) (x ++ (d' ++ y)) := by
  induction h generalizing before with
  | nil => simp at hu
  | @cons _ _ _ g _ w c cs h1 h2 h3 h4 ih =>
    rcases cons_ctx hu with ⟨rfl, h, rfl⟩ | ⟨b', rfl, h⟩
    · obtain ⟨x, d, y, i, rfl, h5, h6⟩ := ty_replace h3 (.con ns b K a) t h
      refine ⟨g ++ c!"|" ++ w ++ x, d, y ++ cs, i, by simp, h5, fun d' t' h => ?_⟩
      have := ConstructorItems.cons h1 h2 (h6 d' t' h) h4
      simpa using this
    · obtain ⟨x, d, y, i, rfl, h5, h6⟩ := ih h
      refine ⟨g ++ c!"|" ++ w ++ c ++ x, d, y, i, by simp, h5, fun d' t' h => ?_⟩
      have := ConstructorItems.cons h1 h2 h3 (h6 d' t' h)
      simpa using this

end ElmParser
