import Verif.Spec.Exprs

/-! The place of an expression: what may follow it. -/
namespace ElmParser
open Spec

theorem Spec.after_le {α : Type} {bs : List α} {j j' k : Nat} (h : j' ≤ j) : after bs j' k ≤ after bs j k := by
  cases bs with
  | nil => exact h
  | cons => exact Nat.le_refl k

theorem Spec.after_bound {α : Type} {bs : List α} {j i : Nat} (h : j ≤ i + 1) : after bs j (i + 1) ≤ i + 1 := by
  cases bs with
  | nil => exact h
  | cons => exact Nat.le_refl _

/-- Fewer things may follow. -/
theorem Spec.SrcAt.anti {st : Prop} {ind j : Nat} {k : Cat} {c : Str} (h : SrcAt st ind j k c) :
    ∀ {j'}, (st → j' ≤ j) → SrcAt st ind j' k c := by
  induction h with
  | var h => exact fun _ => .var h
  | access h1 h2 => exact fun _ => .access h1 h2
  | accessFn h => exact fun _ => .accessFn h
  | str0 => exact fun _ => .str0
  | int h => exact fun _ => .int h
  | float h => exact fun _ => .float h
  | closed _ ih => exact fun hj => .closed (ih hj)
  | str1 h1 h2 => exact fun _ => .str1 h1 h2
  | str3 h => exact fun _ => .str3 h
  | char h => exact fun _ => .char h
  | parens h _ => exact fun _ => .parens h
  | list0 h => exact fun _ => .list0 h
  | list h1 h2 h3 h4 => exact fun _ => .list h1 h2 h3 h4
  | tuple0 => exact fun _ => .tuple0
  | tuple1 h1 h2 h3 h4 => exact fun _ => .tuple1 h1 h2 h3 h4
  | tuple h1 h2 h3 h4 h5 => exact fun _ => .tuple h1 h2 h3 h4 h5
  | record0 h => exact fun _ => .record0 h
  | record h1 h2 h3 h4 => exact fun _ => .record h1 h2 h3 h4
  | simp h => exact fun _ => .simp h
  | update h1 h2 h3 h4 h5 h6 h7 => exact fun _ => .update h1 h2 h3 h4 h5 h6 h7
  | update0 h1 h2 h3 h4 h5 => exact fun _ => .update0 h1 h2 h3 h4 h5
  | items0 => exact fun _ => .items0
  | items h1 h2 h3 h4 => exact fun _ => .items h1 h2 h3 h4
  | comps0 => exact fun _ => .comps0
  | comps h1 h2 h3 h4 => exact fun _ => .comps h1 h2 h3 h4
  | field h1 h2 h3 h4 => exact fun _ => .field h1 h2 h3 h4
  | fields0 => exact fun _ => .fields0
  | fields h1 h2 h3 h4 => exact fun _ => .fields h1 h2 h3 h4
  | upd h1 h2 h3 h4 => exact fun _ => .upd h1 h2 h3 h4
  | upds0 => exact fun _ => .upds0
  | upds h1 h2 h3 h4 => exact fun _ => .upds h1 h2 h3 h4
  | args0 => exact fun _ => .args0
  | args h1 _ _ ih1 ih2 => exact fun hj => .args h1 (ih1 hj) (ih2 hj)
  | app _ _ ih1 ih2 => exact fun hj => .app (ih1 hj) (ih2 hj)
  | eApp _ ih => exact fun hj => .eApp (ih hj)
  | binop _ h1 h2 h3 h4 _ ih1 ih2 => exact fun hj => .binop (ih1 hj) h1 h2 h3 h4 (ih2 hj)
  | let_ h1 h2 h3 h4 h5 _ _ _ ih => exact fun hj => .let_ h1 h2 h3 h4 h5 (ih hj)
  | case_ h1 h2 h3 h4 hi _ _ _ ih1 ih2 =>
    exact fun hj => .case_ h1 h2 h3 h4 (fun h => Nat.le_trans (hj h) (hi h)) (ih1 fun h => after_le (hj h)) (ih2 hj)
  | if_ h1 h2 h3 h4 h5 h6 h7 _ _ _ ih => exact fun hj => .if_ h1 h2 h3 h4 h5 h6 h7 (ih hj)
  | lambda _ _ h1 h2 _ ih1 ih2 ih3 => exact fun hj => .lambda (ih1 hj) (ih2 hj) h1 h2 (ih3 hj)
  | largs0 => exact fun _ => .largs0
  | largs h1 _ _ ih1 ih2 => exact fun hj => .largs h1 (ih1 hj) (ih2 hj)
  | tVar h => exact fun _ => .tVar h
  | tList0 h => exact fun _ => .tList0 h
  | tList h1 h2 h3 h4 => exact fun _ => .tList h1 h2 h3 h4
  | tTuple0 => exact fun _ => .tTuple0
  | tTuple h1 h2 h3 h4 => exact fun _ => .tTuple h1 h2 h3 h4
  | tRecord h => exact fun _ => .tRecord h
  | binding _ h1 h2 _ ih1 ih2 => exact fun hj => .binding (ih1 hj) h1 h2 (ih2 hj)
  | function h _ ih => exact fun hj => .function h (ih hj)
  | entries0 => exact fun _ => .entries0
  | entries h1 h2 _ _ ih1 ih2 => exact fun hj => .entries h1 h2 (ih1 fun h => after_le (hj h)) (ih2 hj)
  | fargs0 => exact fun _ => .fargs0
  | fargs h1 _ _ ih1 ih2 => exact fun hj => .fargs h1 (ih1 hj) (ih2 hj)
  | defn h1 _ h2 h3 _ ih1 ih2 => exact fun hj => .defn h1 (ih1 hj) h2 h3 (ih2 hj)
  | fn _ ih => exact fun hj => .fn (ih hj)
  | fnSig h1 h2 h3 h4 h5 _ ih => exact fun hj => .fnSig h1 h2 h3 h4 h5 (ih hj)
  | branch h1 h2 h3 h4 _ _ ih => exact fun hj => .branch h1 h2 h3 h4 (ih hj)
  | branches0 => exact fun _ => .branches0
  | branches h1 h2 _ _ ih1 ih2 => exact fun hj => .branches h1 h2 (ih1 fun h => after_le (hj h)) (ih2 hj)

/-- Without the extra conditions it does not matter what follows. -/
theorem Spec.SrcAt.any {ind j : Nat} {k : Cat} {c : Str} (h : SrcAt False ind j k c) {j' : Nat} : SrcAt False ind j' k c :=
  h.anti False.elim

/-- The same, with the comparison found automatically. -/
theorem Spec.SrcAt.low {st : Prop} {ind j : Nat} {k : Cat} {c : Str} (h : SrcAt st ind j k c) {j' : Nat}
    (hj : j' ≤ j := by first | exact Nat.zero_le _ | omega | exact after_bound (by omega)) : SrcAt st ind j' k c :=
  h.anti fun _ => hj

theorem Spec.Stop.at {ind : Nat} {r : Str} : StopAt (ind + 1) r ↔ Stop ind r := by
  unfold StopAt Stop
  simp only [Nat.add_lt_add_iff_right, Nat.add_right_cancel_iff]

theorem Spec.StopAt.mono {j j' : Nat} {r : Str} (h : StopAt j r) (hj : j ≤ j') : StopAt j' r := by
  obtain ⟨h1, h | ⟨ls, last, r', hg, h | ⟨h2, h3⟩⟩⟩ := h
  · exact ⟨h1, .inl h⟩
  · exact ⟨h1, .inr ⟨ls, last, r', hg, .inl h⟩⟩
  · refine ⟨h1, .inr ⟨ls, last, r', hg, .inr ⟨h2, ?_⟩⟩⟩
    rcases h3 with h3 | ⟨h3, h4⟩
    · exact .inl (by omega)
    · rcases Nat.lt_or_ge j j' with hl | hl
      · exact .inl (by omega)
      · exact .inr ⟨by omega, h4⟩

theorem Spec.StopAt.stop {j ind : Nat} {r : Str} (h : StopAt j r) (hj : j ≤ ind + 1) : Stop ind r :=
  Stop.at.1 (h.mono hj)

end ElmParser
