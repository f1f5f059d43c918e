import Verif.Proofs.ExprSound

/-! The trees of the grammar `Src` are well formed. -/
namespace ElmParser
open Spec

theorem varText_wf {ns : List Name} {c : Str} (h : VarText ns c) : WFVar ns := by
  cases h with
  | lo h => exact .inl ⟨_, rfl, .inl h⟩
  | up h h' => exact .inr ⟨h, h'⟩
  | op h => exact .inl ⟨_, rfl, .inr (.inl h)⟩
  | commas => exact .inl ⟨_, rfl, .inr (.inr ⟨_, rfl⟩)⟩

theorem fnName_wf {n : Name} {c : Str} (h : FnName n c) : LoName n ∨ Operator n := by
  cases h with
  | lo h => exact .inl h
  | op h => exact .inr h

theorem simpFields_wf {fs : List (Name × Expr)} {c : Str} (h : SimpFields fs c) :
    ∃ ns : List Name, fs = ns.map (fun n => (n, .Variable [n])) ∧ ∀ n ∈ ns, LoName n := by
  induction h with
  | nil => exact ⟨[], rfl, by simp⟩
  | @cons n _ _ _ _ hn _ _ _ ih =>
    obtain ⟨ns, rfl, h⟩ := ih
    exact ⟨n :: ns, rfl, by simpa using ⟨hn, h⟩⟩

theorem simpBody_wf {fs : List (Name × Expr)} {c : Str} (h : SimpBody fs c) :
    ∃ ns : List Name, fs = ns.map (fun n => (n, .Variable [n])) ∧ ∀ n ∈ ns, LoName n := by
  cases h with
  | nil => exact ⟨[], rfl, by simp⟩
  | @cons n _ _ _ _ hn _ _ h =>
    obtain ⟨ns, rfl, h'⟩ := simpFields_wf h
    exact ⟨n :: ns, rfl, by simpa using ⟨hn, h'⟩⟩

/-- Well-formedness of a category. -/
def WFCat : Cat → Prop
  | .closed e | .term e | .app e | .expr e => WFExpr e
  | .args es | .items es | .comps es | .largs es | .fargs es => ∀ e ∈ es, WFExpr e
  | .field f | .upd f => LoName f.1 ∧ WFExpr f.2
  | .fields fs | .upds fs => ∀ f ∈ fs, LoName f.1 ∧ WFExpr f.2
  | .target e => WFTarget e
  | .entry l => WFEntry l
  | .entries ls => ∀ l ∈ ls, WFEntry l
  | .defn (.mk n as e) => (LoName n ∨ Operator n) ∧ (∀ a ∈ as, WFExpr a) ∧ WFExpr e
  | .fn f => WFFunction f
  | .branch b => WFExpr b.1 ∧ WFExpr b.2
  | .branches bs => ∀ b ∈ bs, WFExpr b.1 ∧ WFExpr b.2

theorem wf_foldl {e : Expr} {es : List Expr} (h : WFExpr e) (h' : ∀ e ∈ es, WFExpr e) :
    WFExpr (es.foldl .Application e) := by
  induction es generalizing e with
  | nil => exact h
  | cons x es ih =>
    simp only [List.mem_cons, forall_eq_or_imp] at h'
    exact ih (.app h h'.1) h'.2

theorem src_wf {st : Prop} {ind : Nat} {k : Cat} {c : Str} {j : Nat} (h : SrcAt st ind j k c) : WFCat k := by
  induction h with
  | var h => exact .var (varText_wf h)
  | access h h' => exact .access (varText_wf h) (by simp) h'
  | accessFn h => exact .accessFn h
  | str0 => exact .string (.inl .nil)
  | int h => exact .int h
  | float h => exact .float h
  | closed _ ih => exact ih
  | str1 h => exact .string (.inl h)
  | str3 h => exact .string (.inr h)
  | char => exact .char
  | parens _ ih => exact ih
  | list0 => exact .list (by simp)
  | list _ _ _ _ ih1 ih2 => exact .list (by simpa using ⟨ih1, ih2⟩)
  | tuple0 => exact .tuple (by simp)
  | tuple1 _ _ _ _ ih => exact .tuple (List.forall_mem_cons.2 ⟨ih, by simp⟩)
  | tuple _ _ _ _ _ ih1 ih2 => exact .tuple (by simpa using ⟨ih1, ih2⟩)
  | record0 => exact .record (by simp) (by simp)
  | record _ _ _ _ ih1 ih2 =>
    refine .record ?_ ?_
    · simp only [List.mem_cons, forall_eq_or_imp]; exact ⟨ih1.1, fun f hf => (ih2 f hf).1⟩
    · simp only [List.mem_cons, forall_eq_or_imp]; exact ⟨ih1.2, fun f hf => (ih2 f hf).2⟩
  | simp h =>
    obtain ⟨ns, e, h⟩ := simpBody_wf h
    rw [e]
    refine .record ?_ ?_
    · intro f hf
      obtain ⟨n, hn, rfl⟩ := List.mem_map.1 hf
      exact h n hn
    · intro f hf
      obtain ⟨n, hn, rfl⟩ := List.mem_map.1 hf
      exact .var (.inl ⟨n, rfl, .inl (h n hn)⟩)
  | update _ hn _ _ _ _ _ ih1 ih2 =>
    refine .update hn ?_ ?_
    · simp only [List.mem_cons, forall_eq_or_imp]; exact ⟨ih1.1, fun f hf => (ih2 f hf).1⟩
    · simp only [List.mem_cons, forall_eq_or_imp]; exact ⟨ih1.2, fun f hf => (ih2 f hf).2⟩
  | update0 _ hn => exact .update hn (by simp) (by simp)
  | items0 => exact fun _ h => absurd h (by simp)
  | items _ _ _ _ ih1 ih2 => exact List.forall_mem_cons.2 ⟨ih1, ih2⟩
  | comps0 => exact fun _ h => absurd h (by simp)
  | comps _ _ _ _ ih1 ih2 => exact List.forall_mem_cons.2 ⟨ih1, ih2⟩
  | field h _ _ _ ih => exact ⟨h, ih⟩
  | fields0 => exact fun _ h => absurd h (by simp)
  | fields _ _ _ _ ih1 ih2 => exact List.forall_mem_cons.2 ⟨ih1, ih2⟩
  | upd h _ _ _ ih => exact ⟨h, ih⟩
  | upds0 => exact fun _ h => absurd h (by simp)
  | upds _ _ _ _ ih1 ih2 => exact List.forall_mem_cons.2 ⟨ih1, ih2⟩
  | args0 => exact fun _ h => absurd h (by simp)
  | args _ _ _ ih1 ih2 => exact List.forall_mem_cons.2 ⟨ih1, ih2⟩
  | app _ _ ih1 ih2 => exact wf_foldl ih1 ih2
  | eApp _ ih => exact ih
  | binop _ _ ho _ _ _ ih1 ih2 => exact .binop ho ih1 ih2
  | let_ _ _ _ _ _ _ ih1 ih2 ih3 => exact .let_ (by simp) (List.forall_mem_cons.2 ⟨ih1, ih2⟩) ih3
  | case_ _ _ _ _ _ _ _ ih1 ih2 ih3 =>
    exact .case_ ih1 (by simp) (List.forall_mem_cons.2 ⟨ih2.1, fun b hb => (ih3 b hb).1⟩)
      (List.forall_mem_cons.2 ⟨ih2.2, fun b hb => (ih3 b hb).2⟩)
  | if_ _ _ _ _ _ _ _ _ ih1 ih2 ih3 => exact .if_ ih1 ih2 ih3
  | lambda _ _ _ _ _ ih1 ih2 ih3 => exact .lambda (by simp) (List.forall_mem_cons.2 ⟨ih1, ih2⟩) ih3
  | largs0 => exact fun _ h => absurd h (by simp)
  | largs _ _ _ ih1 ih2 => exact List.forall_mem_cons.2 ⟨ih1, ih2⟩
  | tVar h => exact .var (varText_wf h)
  | tList0 => exact .list (by simp)
  | tList _ _ _ _ ih1 ih2 => exact .list (by simpa using ⟨ih1, ih2⟩)
  | tTuple0 => exact .tuple (by simp)
  | tTuple _ _ _ _ ih1 ih2 => exact .tuple (by simpa using ⟨ih1, ih2⟩)
  | tRecord h =>
    obtain ⟨ns, rfl, h'⟩ := simpBody_wf h
    exact .record h'
  | binding _ _ _ _ ih1 ih2 => exact .binding ih1 ih2
  | function h _ ih => exact .function h ih
  | entries0 => exact fun _ h => absurd h (by simp)
  | entries _ _ _ _ ih1 ih2 => exact List.forall_mem_cons.2 ⟨ih1, ih2⟩
  | fargs0 => exact fun _ h => absurd h (by simp)
  | fargs _ _ _ ih1 ih2 => exact List.forall_mem_cons.2 ⟨ih1, ih2⟩
  | defn hn _ _ _ _ ih1 ih2 => exact ⟨fnName_wf hn, ih1, ih2⟩
  | @fn _ _ d _ _ ih =>
    obtain ⟨n, as, e⟩ := d
    exact .mk (by simp) ih.1 ih.2.1 ih.2.2
  | @fnSig _ _ _ _ _ d _ _ _ _ _ _ hn _ _ ht _ _ ih =>
    obtain ⟨n, as, e⟩ := d
    refine .mk ?_ ih.1 ih.2.1 ih.2.2
    rintro g e
    simp only [Option.some.injEq] at e
    subst e
    exact ⟨fnName_wf hn, tySrc_wf ht⟩
  | branch _ _ _ _ _ ih1 ih2 => exact ⟨ih1, ih2⟩
  | branches0 => exact fun _ h => absurd h (by simp)
  | branches _ _ _ _ ih1 ih2 => exact List.forall_mem_cons.2 ⟨ih1, ih2⟩

end ElmParser
