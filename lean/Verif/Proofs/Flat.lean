import Verif.Spec.Flat
import Verif.Spec.Statements
import Verif.Proofs.ExprAt

/-! Without `let` and `case` the two versions of the layout relation agree. -/
namespace ElmParser
open Spec

/-- Everything in the category is without `let` and `case`. -/
def flatCat : Cat → Prop
  | .closed e | .term e | .app e | .expr e | .target e => Flat e
  | .args es | .items es | .comps es | .largs es | .fargs es => ∀ e ∈ es, Flat e
  | .field f | .upd f => Flat f.2
  | .fields fs | .upds fs => ∀ f ∈ fs, Flat f.2
  | .defn (.mk _ as e) => (∀ a ∈ as, Flat a) ∧ Flat e
  | .fn f => FlatFunction f
  | .entry _ | .entries _ | .branch _ | .branches _ => False

theorem flat_foldl {es : List Expr} {e : Expr} (h : Flat (es.foldl .Application e)) : Flat e ∧ ∀ x ∈ es, Flat x := by
  induction es generalizing e with
  | nil => exact ⟨h, by simp⟩
  | cons x es ih =>
    obtain ⟨h1, h2⟩ := ih h
    cases h1 with
    | app h3 h4 => exact ⟨h3, List.forall_mem_cons.2 ⟨h4, h2⟩⟩

theorem src_flat {st st' : Prop} {ind j : Nat} {k : Cat} {c : Str} (h : SrcAt st ind j k c) :
    flatCat k → SrcAt st' ind j k c := by
  induction h with
  | var h => exact fun _ => .var h
  | access h1 h2 => exact fun _ => .access h1 h2
  | accessFn h => exact fun _ => .accessFn h
  | str0 => exact fun _ => .str0
  | int h => exact fun _ => .int h
  | float h => exact fun _ => .float h
  | closed _ ih => exact fun hk => .closed (ih hk)
  | str1 h1 h2 => exact fun _ => .str1 h1 h2
  | str3 h => exact fun _ => .str3 h
  | char h => exact fun _ => .char h
  | parens _ ih => exact fun hk => .parens (ih hk)
  | list0 h => exact fun _ => .list0 h
  | list h1 _ _ h4 ih1 ih2 =>
    rintro ⟨⟩; rename_i h
    have := List.forall_mem_cons.1 h
    exact .list h1 (ih1 this.1) (ih2 this.2) h4
  | tuple0 => exact fun _ => .tuple0
  | tuple1 h1 h2 h3 _ ih =>
    rintro ⟨⟩; rename_i h
    exact .tuple1 h1 h2 h3 (ih (h _ (by simp)))
  | tuple h1 h2 _ _ h5 ih1 ih2 =>
    rintro ⟨⟩; rename_i h
    have := List.forall_mem_cons.1 h
    exact .tuple h1 h2 (ih1 this.1) (ih2 this.2) h5
  | record0 h => exact fun _ => .record0 h
  | record h1 _ _ h4 ih1 ih2 =>
    rintro ⟨⟩; rename_i h
    have := List.forall_mem_cons.1 h
    exact .record h1 (ih1 this.1) (ih2 this.2) h4
  | simp h => exact fun _ => .simp h
  | update h1 h2 h3 h4 _ _ h7 ih1 ih2 =>
    rintro ⟨⟩; rename_i h
    have := List.forall_mem_cons.1 h
    exact .update h1 h2 h3 h4 (ih1 this.1) (ih2 this.2) h7
  | update0 h1 h2 h3 h4 h5 => exact fun _ => .update0 h1 h2 h3 h4 h5
  | items0 => exact fun _ => .items0
  | items h1 h2 _ _ ih1 ih2 =>
    exact fun h => .items h1 h2 (ih1 (h _ (by simp))) (ih2 fun x hx => h x (List.mem_cons_of_mem _ hx))
  | comps0 => exact fun _ => .comps0
  | comps h1 h2 _ _ ih1 ih2 =>
    exact fun h => .comps h1 h2 (ih1 (h _ (by simp))) (ih2 fun x hx => h x (List.mem_cons_of_mem _ hx))
  | field h1 h2 h3 _ ih => exact fun h => .field h1 h2 h3 (ih h)
  | fields0 => exact fun _ => .fields0
  | fields h1 h2 _ _ ih1 ih2 =>
    exact fun h => .fields h1 h2 (ih1 (h _ (by simp))) (ih2 fun x hx => h x (List.mem_cons_of_mem _ hx))
  | upd h1 h2 h3 _ ih => exact fun h => .upd h1 h2 h3 (ih h)
  | upds0 => exact fun _ => .upds0
  | upds h1 h2 _ _ ih1 ih2 =>
    exact fun h => .upds h1 h2 (ih1 (h _ (by simp))) (ih2 fun x hx => h x (List.mem_cons_of_mem _ hx))
  | args0 => exact fun _ => .args0
  | args h1 _ _ ih1 ih2 =>
    exact fun h => .args h1 (ih1 (h _ (by simp))) (ih2 fun x hx => h x (List.mem_cons_of_mem _ hx))
  | app _ _ ih1 ih2 => exact fun h => .app (ih1 (flat_foldl h).1) (ih2 (flat_foldl h).2)
  | eApp _ ih => exact fun h => .eApp (ih h)
  | binop _ h1 h2 h3 h4 _ ih1 ih2 =>
    rintro ⟨⟩; rename_i _ ha hb
    exact .binop (ih1 ha) h1 h2 h3 h4 (ih2 hb)
  | let_ => rintro ⟨⟩
  | case_ => rintro ⟨⟩
  | if_ h1 _ h3 h4 _ h6 h7 _ ih1 ih2 ih3 =>
    rintro ⟨⟩; rename_i ha hb hc
    exact .if_ h1 (ih1 ha) h3 h4 (ih2 hb) h6 h7 (ih3 hc)
  | lambda _ _ h1 h2 _ ih1 ih2 ih3 =>
    rintro ⟨⟩; rename_i ha hb
    have := List.forall_mem_cons.1 ha
    exact .lambda (ih1 this.1) (ih2 this.2) h1 h2 (ih3 hb)
  | largs0 => exact fun _ => .largs0
  | largs h1 _ _ ih1 ih2 =>
    exact fun h => .largs h1 (ih1 (h _ (by simp))) (ih2 fun x hx => h x (List.mem_cons_of_mem _ hx))
  | tVar h => exact fun _ => .tVar h
  | tList0 h => exact fun _ => .tList0 h
  | tList h1 _ _ h4 ih1 ih2 =>
    rintro ⟨⟩; rename_i h
    have := List.forall_mem_cons.1 h
    exact .tList h1 (ih1 this.1) (ih2 this.2) h4
  | tTuple0 => exact fun _ => .tTuple0
  | tTuple h1 h2 _ _ ih1 ih2 =>
    rintro ⟨⟩; rename_i h
    have := List.forall_mem_cons.1 h
    exact .tTuple h1 h2 (ih1 this.1) (ih2 this.2)
  | tRecord h => exact fun _ => .tRecord h
  | binding => exact False.elim
  | function => exact False.elim
  | entries0 => exact False.elim
  | entries => exact False.elim
  | fargs0 => exact fun _ => .fargs0
  | fargs h1 _ _ ih1 ih2 =>
    exact fun h => .fargs h1 (ih1 (h _ (by simp))) (ih2 fun x hx => h x (List.mem_cons_of_mem _ hx))
  | defn h1 _ h2 h3 _ ih1 ih2 => exact fun h => .defn h1 (ih1 h.1) h2 h3 (ih2 h.2)
  | @fn _ _ d _ _ ih => cases d; exact fun h => .fn (ih h)
  | @fnSig _ _ _ _ _ d _ _ _ _ _ _ h1 h2 h3 h4 h5 _ ih => cases d; exact fun h => .fnSig h1 h2 h3 h4 h5 (ih h)
  | branch => exact False.elim
  | branches0 => exact False.elim
  | branches => exact False.elim

theorem stmtSrc_flat {st st' : Prop} {x : Statement} {c : Str} (h : StmtSrc st x c) (hx : FlatStatement x) : StmtSrc st' x c := by
  cases h with
  | portModule h1 h2 h3 h4 h5 h6 h7 => exact .portModule h1 h2 h3 h4 h5 h6 h7
  | effectModule h1 h2 h3 h4 h5 h6 h7 h8 h9 h10 => exact .effectModule h1 h2 h3 h4 h5 h6 h7 h8 h9 h10
  | module_ h1 h2 h3 h4 h5 h6 => exact .module_ h1 h2 h3 h4 h5 h6
  | import_ h1 h2 h3 h4 h5 => exact .import_ h1 h2 h3 h4 h5
  | typeAlias h1 h2 h3 h4 h5 h6 => exact .typeAlias h1 h2 h3 h4 h5 h6
  | type_ h1 h2 h3 h4 h5 h6 => exact .type_ h1 h2 h3 h4 h5 h6
  | portType h1 h2 h3 h4 h5 => exact .portType h1 h2 h3 h4 h5
  | port h1 h2 h3 h4 h5 h6 => exact .port h1 h2 h3 h4 h5 (src_flat h6 hx)
  | function h => exact .function (src_flat h hx)
  | infix_ h1 h2 h3 h4 h5 => exact .infix_ h1 h2 h3 h4 h5
  | block h => exact .block h

end ElmParser
