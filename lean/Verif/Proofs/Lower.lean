import Verif.Proofs.Flat
import Verif.Proofs.ExprComplete

/-! Without `let` and `case`, a layout at some indentation is a layout at every smaller one. -/
namespace ElmParser
open Spec

theorem gap_lower {ir : IR} (hir : ir ≠ .EQ) {ind i ind' : Nat} {g : Str} (h : GapTxt ind ir i g) (hi : ind' ≤ ind) :
    ∃ i', i' ≤ i ∧ GapTxt ind' ir i' g := by
  obtain ⟨ls, n, h1, h2, h3, ⟨h4, rfl⟩ | ⟨h4, h5, h6⟩⟩ := h
  · exact ⟨ind', hi, ls, n, h1, h2, h3, .inl ⟨h4, rfl⟩⟩
  · refine ⟨i, Nat.le_refl _, ls, n, h1, h2, h3, .inr ⟨h4, h5, ?_⟩⟩
    cases ir with
    | EQ => exact absurd rfl hir
    | GT => simp only [Rel] at h6 ⊢; omega
    | GTE => simp only [Rel] at h6 ⊢; omega

theorem optGap_lower {ir : IR} (hir : ir ≠ .EQ) {ind ind' : Nat} {g : Str} (h : OptGapTxt ind ir g) (hi : ind' ≤ ind) :
    OptGapTxt ind' ir g := by
  rcases h with h | ⟨i, h⟩
  · exact .inl h
  · obtain ⟨i', -, h⟩ := gap_lower hir h hi
    exact .inr ⟨i', h⟩

theorem ty_lower {ind : Nat} {k : TyCat} {c : Str} (h : TySrc ind k c) : ∀ {i : Nat}, i ≤ ind → TySrc i k c := by
  induction h with
  | var h => exact fun _ => .var h
  | extRecord h1 h2 h3 h4 _ _ h7 ih1 ih2 =>
    intro i hi
    obtain ⟨_, -, h1⟩ := gap_lower (by decide) h1 hi
    obtain ⟨_, -, h3⟩ := gap_lower (by decide) h3 hi
    obtain ⟨_, -, h4⟩ := gap_lower (by decide) h4 hi
    obtain ⟨_, -, h7⟩ := gap_lower (by decide) h7 hi
    exact .extRecord h1 h2 h3 h4 (ih1 hi) (ih2 hi) h7
  | record0 h => exact fun hi => .record0 (optGap_lower (by decide) h hi)
  | record h1 _ _ h4 ih1 ih2 =>
    exact fun hi => .record (optGap_lower (by decide) h1 hi) (ih1 hi) (ih2 hi) (optGap_lower (by decide) h4 hi)
  | tuple0 h => exact fun hi => .tuple0 (optGap_lower (by decide) h hi)
  | tuple h1 _ _ h4 ih1 ih2 =>
    exact fun hi => .tuple (optGap_lower (by decide) h1 hi) (ih1 hi) (ih2 hi) (optGap_lower (by decide) h4 hi)
  | parens h1 _ h3 h4 _ h6 ih1 ih2 =>
    exact fun hi => .parens (optGap_lower (by decide) h1 hi) (ih1 hi) h3 h4 (ih2 hi) (optGap_lower (by decide) h6 hi)
  | parAtom _ ih => exact fun hi => .parAtom (ih hi)
  | parConst h1 h2 => exact fun _ => .parConst h1 h2
  | tyAtom _ ih => exact fun hi => .tyAtom (ih hi)
  | con h1 h2 _ ih => exact fun hi => .con h1 h2 (ih hi)
  | args0 => exact fun _ => .args0
  | args h1 _ _ ih1 ih2 =>
    intro i hi
    obtain ⟨_, hi', h1⟩ := gap_lower (by decide) h1 hi
    exact .args h1 (ih1 hi') (ih2 hi)
  | items0 => exact fun _ => .items0
  | items h1 h2 _ _ ih1 ih2 =>
    exact fun hi => .items (optGap_lower (by decide) h1 hi) (optGap_lower (by decide) h2 hi) (ih1 hi) (ih2 hi)
  | field h1 h2 h3 _ ih =>
    exact fun hi => .field h1 (optGap_lower (by decide) h2 hi) (optGap_lower (by decide) h3 hi) (ih hi)
  | fields0 => exact fun _ => .fields0
  | fields h1 h2 _ _ ih1 ih2 =>
    exact fun hi => .fields (optGap_lower (by decide) h1 hi) (optGap_lower (by decide) h2 hi) (ih1 hi) (ih2 hi)
  | annTy _ ih => exact fun hi => .annTy (ih hi)
  | annArrow _ h2 h3 _ ih1 ih2 => exact fun hi => .annArrow (ih1 hi) h2 h3 (ih2 hi)

/-- Everything in the category is without `let` and `case`, and it has no signature. -/
def lowCat : Cat → Prop
  | .fn _ => False
  | k => flatCat k

theorem src_lower {st st' : Prop} {ind j : Nat} {k : Cat} {c : Str} (h : SrcAt st ind j k c) :
    lowCat k → ∀ {i j' : Nat}, i ≤ ind → SrcAt st' i j' k c := by
  have G : IR.GTE ≠ .EQ := by decide
  induction h with
  | var h => exact fun _ {_ _} _ => .var h
  | access h1 h2 => exact fun _ {_ _} _ => .access h1 h2
  | accessFn h => exact fun _ {_ _} _ => .accessFn h
  | str0 => exact fun _ {_ _} _ => .str0
  | int h => exact fun _ {_ _} _ => .int h
  | float h => exact fun _ {_ _} _ => .float h
  | closed _ ih => exact fun hk {_ _} hi => .closed (ih hk hi)
  | str1 h1 h2 => exact fun _ {_ _} _ => .str1 h1 h2
  | str3 h => exact fun _ {_ _} _ => .str3 h
  | char h => exact fun _ {_ _} _ => .char h
  | parens _ ih => exact fun hk {_ _} hi => .parens (ih hk hi)
  | list0 h => exact fun _ {_ _} hi => .list0 (optGap_lower G h hi)
  | list h1 _ _ h4 ih1 ih2 =>
    rintro ⟨⟩ i j' hi; rename_i h
    have := List.forall_mem_cons.1 h
    exact .list (optGap_lower G h1 hi) (ih1 this.1 hi) (ih2 this.2 hi) (optGap_lower G h4 hi)
  | tuple0 => exact fun _ {_ _} _ => .tuple0
  | tuple1 h1 h2 h3 _ ih =>
    rintro ⟨⟩ i j' hi; rename_i h
    exact .tuple1 h1 h2 h3 (ih (h _ (by simp)) hi)
  | tuple h1 h2 _ _ h5 ih1 ih2 =>
    rintro ⟨⟩ i j' hi; rename_i h
    have := List.forall_mem_cons.1 h
    exact .tuple h1 h2 (ih1 this.1 hi) (ih2 this.2 hi) h5
  | record0 h => exact fun _ {_ _} hi => .record0 (optGap_lower G h hi)
  | record h1 _ _ h4 ih1 ih2 =>
    rintro ⟨⟩ i j' hi; rename_i h
    have := List.forall_mem_cons.1 h
    exact .record (optGap_lower G h1 hi) (ih1 this.1 hi) (ih2 this.2 hi) (optGap_lower G h4 hi)
  | simp h => exact fun _ {_ _} _ => .simp h
  | update h1 h2 h3 h4 _ _ h7 ih1 ih2 =>
    rintro ⟨⟩ i j' hi; rename_i h
    have := List.forall_mem_cons.1 h
    obtain ⟨_, -, h7⟩ := gap_lower G h7 hi
    exact .update (optGap_lower G h1 hi) h2 (optGap_lower G h3 hi) h4 (ih1 this.1 hi) (ih2 this.2 hi) h7
  | update0 h1 h2 h3 h4 h5 =>
    intro _ i j' hi
    obtain ⟨_, -, h5⟩ := gap_lower G h5 hi
    exact .update0 (optGap_lower G h1 hi) h2 (optGap_lower G h3 hi) h4 h5
  | items0 => exact fun _ {_ _} _ => .items0
  | items h1 h2 _ _ ih1 ih2 =>
    exact fun h {_ _} hi => .items (optGap_lower G h1 hi) (optGap_lower G h2 hi) (ih1 (h _ (by simp)) hi)
      (ih2 (fun x hx => h x (List.mem_cons_of_mem _ hx)) hi)
  | comps0 => exact fun _ {_ _} _ => .comps0
  | comps h1 h2 _ _ ih1 ih2 =>
    exact fun h {_ _} hi => .comps h1 h2 (ih1 (h _ (by simp)) hi) (ih2 (fun x hx => h x (List.mem_cons_of_mem _ hx)) hi)
  | field h1 h2 h3 _ ih => exact fun h {_ _} hi => .field h1 (optGap_lower G h2 hi) (optGap_lower G h3 hi) (ih h hi)
  | fields0 => exact fun _ {_ _} _ => .fields0
  | fields h1 h2 _ _ ih1 ih2 =>
    exact fun h {_ _} hi => .fields (optGap_lower G h1 hi) (optGap_lower G h2 hi) (ih1 (h _ (by simp)) hi)
      (ih2 (fun x hx => h x (List.mem_cons_of_mem _ hx)) hi)
  | upd h1 h2 h3 _ ih => exact fun h {_ _} hi => .upd h1 h2 h3 (ih h hi)
  | upds0 => exact fun _ {_ _} _ => .upds0
  | upds h1 h2 _ _ ih1 ih2 =>
    exact fun h {_ _} hi => .upds (optGap_lower G h1 hi) (optGap_lower G h2 hi) (ih1 (h _ (by simp)) hi)
      (ih2 (fun x hx => h x (List.mem_cons_of_mem _ hx)) hi)
  | args0 => exact fun _ {_ _} _ => .args0
  | args h1 _ _ ih1 ih2 =>
    intro h i j' hi
    obtain ⟨_, -, h1⟩ := gap_lower (by decide) h1 hi
    exact .args h1 (ih1 (h _ (by simp)) hi) (ih2 (fun x hx => h x (List.mem_cons_of_mem _ hx)) hi)
  | app _ _ ih1 ih2 => exact fun h {_ _} hi => .app (ih1 (flat_foldl h).1 hi) (ih2 (flat_foldl h).2 hi)
  | eApp _ ih => exact fun h {_ _} hi => .eApp (ih h hi)
  | binop _ h1 h2 h3 h4 _ ih1 ih2 =>
    rintro ⟨⟩ i j' hi; rename_i _ ha hb
    obtain ⟨_, -, h1⟩ := gap_lower G h1 hi
    exact .binop (ih1 ha hi) h1 h2 h3 h4 (ih2 hb hi)
  | let_ => rintro ⟨⟩
  | case_ => rintro ⟨⟩
  | if_ h1 _ h3 h4 _ h6 h7 _ ih1 ih2 ih3 =>
    rintro ⟨⟩ i j' hi; rename_i ha hb hc
    obtain ⟨_, -, h1⟩ := gap_lower G h1 hi
    obtain ⟨_, -, h3⟩ := gap_lower G h3 hi
    obtain ⟨_, hi4, h4⟩ := gap_lower G h4 hi
    obtain ⟨_, -, h6⟩ := gap_lower G h6 hi
    obtain ⟨_, hi7, h7⟩ := gap_lower G h7 hi
    exact .if_ h1 (ih1 ha hi) h3 h4 (ih2 hb hi4) h6 h7 (ih3 hc hi7)
  | lambda _ _ h1 h2 _ ih1 ih2 ih3 =>
    rintro ⟨⟩ i j' hi; rename_i ha hb
    have := List.forall_mem_cons.1 ha
    obtain ⟨_, -, h1⟩ := gap_lower G h1 hi
    obtain ⟨_, hi2, h2⟩ := gap_lower G h2 hi
    exact .lambda (ih1 this.1 hi) (ih2 this.2 hi) h1 h2 (ih3 hb hi2)
  | largs0 => exact fun _ {_ _} _ => .largs0
  | largs h1 _ _ ih1 ih2 =>
    exact fun h {_ _} hi => .largs h1 (ih1 (h _ (by simp)) hi) (ih2 (fun x hx => h x (List.mem_cons_of_mem _ hx)) hi)
  | tVar h => exact fun _ {_ _} _ => .tVar h
  | tList0 h => exact fun _ {_ _} hi => .tList0 (optGap_lower G h hi)
  | tList h1 _ _ h4 ih1 ih2 =>
    rintro ⟨⟩ i j' hi; rename_i h
    have := List.forall_mem_cons.1 h
    exact .tList (optGap_lower G h1 hi) (ih1 this.1 hi) (ih2 this.2 hi) (optGap_lower G h4 hi)
  | tTuple0 => exact fun _ {_ _} _ => .tTuple0
  | tTuple h1 h2 _ _ ih1 ih2 =>
    rintro ⟨⟩ i j' hi; rename_i h
    have := List.forall_mem_cons.1 h
    exact .tTuple h1 h2 (ih1 this.1 hi) (ih2 this.2 hi)
  | tRecord h => exact fun _ {_ _} _ => .tRecord h
  | binding => exact False.elim
  | function => exact False.elim
  | entries0 => exact False.elim
  | entries => exact False.elim
  | fargs0 => exact fun _ {_ _} _ => .fargs0
  | fargs h1 _ _ ih1 ih2 =>
    exact fun h {_ _} hi => .fargs h1 (ih1 (h _ (by simp)) hi) (ih2 (fun x hx => h x (List.mem_cons_of_mem _ hx)) hi)
  | defn h1 _ h2 h3 _ ih1 ih2 =>
    intro h i j' hi
    obtain ⟨_, hi3, h3⟩ := gap_lower (by decide) h3 hi
    exact .defn h1 (ih1 h.1 hi) h2 h3 (ih2 h.2 hi3)
  | fn => exact False.elim
  | fnSig => exact False.elim
  | branch => exact False.elim
  | branches0 => exact False.elim
  | branches => exact False.elim

end ElmParser
