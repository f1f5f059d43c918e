import Verif.Proofs.ExprComplete

/-! Every well-formed expression has a text. -/
namespace ElmParser
open Spec

/-- There is a text. -/
def HasText (ind : Nat) (k : Cat) : Prop := ∃ c, Src True ind k c

theorem HasText.expr {ind : Nat} {e : Expr} : HasText ind (.term e) → HasText ind (.expr e) := by
  rintro ⟨c, h⟩
  have := SrcAt.eApp (.app h .args0)
  exact ⟨_, this⟩

theorem HasText.parens {ind : Nat} {e : Expr} : HasText ind (.expr e) → HasText ind (.term e) :=
  fun ⟨_, h⟩ => ⟨_, .closed (.parens h.low)⟩

theorem HasText.inside {ind : Nat} {e : Expr} {c : Str} (h : SrcAt True ind 0 (.expr e) c) : HasText ind (.term e) :=
  ⟨_, .closed (.parens h)⟩

theorem HasText.closed {ind : Nat} {e : Expr} : HasText ind (.closed e) → HasText ind (.term e) :=
  fun ⟨_, h⟩ => ⟨_, .closed h⟩

theorem gapTxt_line {ind : Nat} {ir : IR} {n : Nat} (h : Rel ir n ind) (hn : n < 4294967296) :
    GapTxt ind ir n ('\n' :: sp n) :=
  ⟨[⟨0, none⟩], n, by simp [gapText, Line.text, commentText, sp], by simp, by simp [Line.ok], .inr ⟨by simp, (Nat.mod_eq_of_lt hn).symm, h⟩⟩

theorem gapTxt_comment {ind : Nat} (hn : ind < 4294967296) :
    GapTxt ind .GTE ind ('-' :: ('-' :: '\n' :: sp ind)) :=
  ⟨[⟨0, some []⟩], ind, by simp [gapText, Line.text, commentText, sp], by simp, by simp [Line.ok],
    .inr ⟨by simp, (Nat.mod_eq_of_lt hn).symm, Nat.le_refl _⟩⟩

theorem whites_space : Whites [' '] := by simp [Whites, White]
theorem blanks_space : BlanksTxt [' '] := by simp [BlanksTxt]
theorem spacesTxt_space : SpacesTxt [' '] := by simp [SpacesTxt]

theorem WFVar.text {ns : List Name} (h : WFVar ns) : ∃ c, VarText ns c := by
  rcases h with ⟨n, rfl, h | h | ⟨k, rfl⟩⟩ | ⟨h, h'⟩
  · exact ⟨_, .lo h⟩
  · exact ⟨_, .op h⟩
  · exact ⟨_, .commas⟩
  · exact ⟨_, .up h h'⟩

theorem fnName_text {n : Name} (h : LoName n ∨ Operator n) : ∃ m, FnName n m := by
  rcases h with h | h
  · exact ⟨_, .lo h⟩
  · exact ⟨_, .op h⟩

section
variable {ind : Nat}

theorem items_text {es : List Expr} (h : ∀ e ∈ es, HasText ind (.term e)) : HasText ind (.items es) := by
  induction es with
  | nil => exact ⟨_, .items0⟩
  | cons e es ih =>
    obtain ⟨c, hc⟩ := (h e (by simp)).expr
    obtain ⟨cs, hcs⟩ := ih fun e he => h e (List.mem_cons_of_mem _ he)
    exact ⟨_, .items (.inl rfl) (.inl rfl) hc.low hcs.low⟩

theorem comps_text {es : List Expr} (h : ∀ e ∈ es, HasText ind (.term e)) : HasText ind (.comps es) := by
  induction es with
  | nil => exact ⟨_, .comps0⟩
  | cons e es ih =>
    obtain ⟨c, hc⟩ := (h e (by simp)).expr
    obtain ⟨cs, hcs⟩ := ih fun e he => h e (List.mem_cons_of_mem _ he)
    exact ⟨_, .comps whites_space whites_space hc.low hcs.low⟩

theorem largs_text {es : List Expr} (h : ∀ e ∈ es, HasText ind (.term e)) : HasText ind (.largs es) := by
  induction es with
  | nil => exact ⟨_, .largs0⟩
  | cons e es ih =>
    obtain ⟨c, hc⟩ := h e (by simp)
    obtain ⟨cs, hcs⟩ := ih fun e he => h e (List.mem_cons_of_mem _ he)
    exact ⟨_, .largs blanks_space hc hcs⟩

theorem fargs_text {es : List Expr} (h : ∀ e ∈ es, HasText ind (.term e)) : HasText ind (.fargs es) := by
  induction es with
  | nil => exact ⟨_, .fargs0⟩
  | cons e es ih =>
    obtain ⟨c, hc⟩ := h e (by simp)
    obtain ⟨cs, hcs⟩ := ih fun e he => h e (List.mem_cons_of_mem _ he)
    exact ⟨_, .fargs spacesTxt_space hc hcs⟩

theorem field_text {f : Name × Expr} (hn : LoName f.1) (h : HasText ind (.term f.2)) : HasText ind (.field f) := by
  obtain ⟨c, hc⟩ := h.expr
  exact ⟨_, .field hn (.inl rfl) (.inl rfl) hc.low⟩

theorem fields_text {fs : List (Name × Expr)} (hn : ∀ f ∈ fs, LoName f.1) (h : ∀ f ∈ fs, HasText ind (.term f.2)) :
    HasText ind (.fields fs) := by
  induction fs with
  | nil => exact ⟨_, .fields0⟩
  | cons f fs ih =>
    obtain ⟨c, hc⟩ := field_text (hn f (by simp)) (h f (by simp))
    obtain ⟨cs, hcs⟩ := ih (fun e he => hn e (List.mem_cons_of_mem _ he)) fun e he => h e (List.mem_cons_of_mem _ he)
    exact ⟨_, .fields (.inl rfl) (.inl rfl) hc.low hcs.low⟩

theorem upd_text {f : Name × Expr} (hn : LoName f.1) (h : HasText ind (.term f.2)) : HasText ind (.upd f) := by
  obtain ⟨c, hc⟩ := h.expr
  exact ⟨_, .upd hn whites_space whites_space hc.low⟩

theorem upds_text {fs : List (Name × Expr)} (hn : ∀ f ∈ fs, LoName f.1) (h : ∀ f ∈ fs, HasText ind (.term f.2)) :
    HasText ind (.upds fs) := by
  induction fs with
  | nil => exact ⟨_, .upds0⟩
  | cons f fs ih =>
    obtain ⟨c, hc⟩ := upd_text (hn f (by simp)) (h f (by simp))
    obtain ⟨cs, hcs⟩ := ih (fun e he => hn e (List.mem_cons_of_mem _ he)) fun e he => h e (List.mem_cons_of_mem _ he)
    exact ⟨_, .upds (.inl rfl) (.inl rfl) hc.low hcs.low⟩

theorem entries_text {ls : List LetEntry} (hi : ind < 4294967296) (h : ∀ l ∈ ls, HasText ind (.entry l)) :
    HasText ind (.entries ls) := by
  induction ls with
  | nil => exact ⟨_, .entries0⟩
  | cons l ls ih =>
    obtain ⟨c, hc⟩ := h l (by simp)
    obtain ⟨cs, hcs⟩ := ih fun e he => h e (List.mem_cons_of_mem _ he)
    exact ⟨_, .entries (gapTxt_line (ir := .EQ) rfl hi) (by simp) hc.low hcs⟩

theorem branch_text {b : Expr × Expr} (h1 : HasText ind (.term b.1)) (h2 : HasText ind (.term b.2)) :
    HasText ind (.branch b) := by
  obtain ⟨c, hc⟩ := h1.expr
  obtain ⟨d, hd⟩ := h2.expr
  exact ⟨_, .branch hc.low (gapTxt_space _ _) (gapTxt_space _ _) (by simp) hd⟩

theorem branches_text {bs : List (Expr × Expr)} (hi : ind < 4294967296) (h1 : ∀ b ∈ bs, HasText ind (.term b.1))
    (h2 : ∀ b ∈ bs, HasText ind (.term b.2)) : HasText ind (.branches bs) := by
  induction bs with
  | nil => exact ⟨_, .branches0⟩
  | cons b bs ih =>
    obtain ⟨c, hc⟩ := branch_text (h1 b (by simp)) (h2 b (by simp))
    obtain ⟨cs, hcs⟩ := ih (fun e he => h1 e (List.mem_cons_of_mem _ he)) fun e he => h2 e (List.mem_cons_of_mem _ he)
    exact ⟨_, .branches (gapTxt_line (ir := .EQ) rfl hi) (by simp) hc.low hcs⟩

theorem simpFields_text {ns : List Name} (h : ∀ n ∈ ns, LoName n) :
    ∃ c, SimpFields (ns.map fun n => (n, Expr.Variable [n])) c := by
  induction ns with
  | nil => exact ⟨_, .nil⟩
  | cons n ns ih =>
    obtain ⟨cs, hcs⟩ := ih fun e he => h e (List.mem_cons_of_mem _ he)
    exact ⟨_, .cons (h n (by simp)) whites_space whites_space hcs⟩

theorem simpBody_text {ns : List Name} (h : ∀ n ∈ ns, LoName n) :
    ∃ c, SimpBody (ns.map fun n => (n, Expr.Variable [n])) c := by
  cases ns with
  | nil => exact ⟨_, .nil⟩
  | cons n ns =>
    obtain ⟨cs, hcs⟩ := simpFields_text fun e he => h e (List.mem_cons_of_mem _ he)
    exact ⟨_, .cons (h n (by simp)) whites_space whites_space hcs⟩

end

/-! ### The theorem -/

mutual
theorem expr_text : {e : Expr} → WFExpr e → ∀ ind, ind < 4294967296 → HasText ind (.term e)
  | _, .char, _, _ => .closed ⟨_, .char (.inl rfl)⟩
  | _, .string (s := s) h, ind, _ => by
    by_cases hs : s = []
    · subst hs; exact ⟨_, .str0⟩
    · rcases h with h | h
      · exact .closed ⟨_, .str1 h hs⟩
      · exact .closed ⟨_, .str3 h⟩
  | _, .int h, _, _ => ⟨_, .int h⟩
  | _, .float h, _, _ => ⟨_, .float h⟩
  | _, .var h, _, _ => by
    obtain ⟨c, h⟩ := WFVar.text h
    exact ⟨_, .var h⟩
  | _, .list (es := es) h, ind, hi => by
    have := fun e he => expr_text (h e he) ind hi
    cases es with
    | nil => exact .closed ⟨_, .list0 (.inl rfl)⟩
    | cons e es =>
      obtain ⟨c, hc⟩ := (this e (by simp)).expr
      obtain ⟨cs, hcs⟩ := items_text fun e he => this e (List.mem_cons_of_mem _ he)
      exact .closed ⟨_, .list (.inl rfl) hc.low hcs.low (.inl rfl)⟩
  | _, .tuple (es := es) h, ind, hi => by
    have := fun e he => expr_text (h e he) ind hi
    cases es with
    | nil => exact .closed ⟨_, .tuple0⟩
    | cons e es =>
      obtain ⟨c, hc⟩ := (this e (by simp)).expr
      obtain ⟨cs, hcs⟩ := comps_text fun e he => this e (List.mem_cons_of_mem _ he)
      cases es with
      | nil => exact .closed ⟨_, .tuple1 whites_space whites_space (by simp) hc.low⟩
      | cons e' es => exact .closed ⟨_, .tuple whites_space whites_space hc.low hcs.low (by simp)⟩
  | _, .access (ms := ms) h hne hm, ind, _ => by
    obtain ⟨c, h⟩ := WFVar.text h
    cases ms with
    | nil => exact absurd rfl hne
    | cons m ms => exact ⟨_, .access h hm⟩
  | _, .accessFn h, _, _ => ⟨_, .accessFn h⟩
  | _, .record (fs := fs) hn h, ind, hi => by
    have := fun e he => expr_text (h e he) ind hi
    cases fs with
    | nil => exact .closed ⟨_, .record0 (.inl rfl)⟩
    | cons f fs =>
      obtain ⟨c, hc⟩ := field_text (hn f (by simp)) (this f (by simp))
      obtain ⟨cs, hcs⟩ := fields_text (fun f hf => hn f (List.mem_cons_of_mem _ hf)) fun f hf => this f (List.mem_cons_of_mem _ hf)
      exact .closed ⟨_, .record (.inl rfl) hc.low hcs.low (.inl rfl)⟩
  | _, .update (fs := fs) hm hn h, ind, hi => by
    have := fun e he => expr_text (h e he) ind hi
    cases fs with
    | nil =>
      exact .closed ⟨_, .update0 (.inl rfl) hm (.inl rfl) whites_space (gapTxt_comment hi)⟩
    | cons f fs =>
      obtain ⟨c, hc⟩ := upd_text (hn f (by simp)) (this f (by simp))
      obtain ⟨cs, hcs⟩ := upds_text (fun f hf => hn f (List.mem_cons_of_mem _ hf)) fun f hf => this f (List.mem_cons_of_mem _ hf)
      exact .closed ⟨_, .update (.inl rfl) hm (.inl rfl) whites_space hc.low hcs.low (gapTxt_space _ _)⟩
  | _, .if_ h1 h2 h3, ind, hi => by
    obtain ⟨c1, k1⟩ := (expr_text h1 ind hi).expr
    obtain ⟨c2, k2⟩ := (expr_text h2 ind hi).expr
    obtain ⟨c3, k3⟩ := (expr_text h3 ind hi).expr
    exact .parens ⟨_, .if_ (gapTxt_space _ _) k1.low (gapTxt_space _ _) (gapTxt_space _ _) k2.low (gapTxt_space _ _)
      (gapTxt_space _ _) k3⟩
  | _, .let_ (ls := ls) hne hl he, ind, hi => by
    have := fun l h => entry_text (hl l h) ind hi
    obtain ⟨d, hd⟩ := (expr_text he ind hi).expr
    cases ls with
    | nil => exact absurd rfl hne
    | cons l ls =>
      obtain ⟨c, hc⟩ := this l (by simp)
      obtain ⟨cs, hcs⟩ := entries_text hi fun l h => this l (List.mem_cons_of_mem _ h)
      exact .parens ⟨_, .let_ (gapTxt_space _ _) hc.low hcs.low (gapTxt_space _ _) (gapTxt_space _ _) hd⟩
  | _, .case_ (bs := bs) he hne h1 h2, ind, hi => by
    have k1 := fun b hb => expr_text (h1 b hb) ind hi
    have k2 := fun b hb => expr_text (h2 b hb) ind hi
    obtain ⟨c, hc⟩ := (expr_text he ind hi).expr
    cases bs with
    | nil => exact absurd rfl hne
    | cons b bs =>
      obtain ⟨d, hd⟩ := branch_text (k1 b (by simp)) (k2 b (by simp))
      obtain ⟨ds, hds⟩ := branches_text hi (fun b h => k1 b (List.mem_cons_of_mem _ h)) fun b h => k2 b (List.mem_cons_of_mem _ h)
      exact .inside (.case_ (gapTxt_space _ _) hc.low (gapTxt_space _ _) (gapTxt_space _ _) (fun _ => Nat.zero_le _)
        hd.low hds.low)
  | _, .lambda (as := as) hne h he, ind, hi => by
    have := fun e he => expr_text (h e he) ind hi
    obtain ⟨d, hd⟩ := (expr_text he ind hi).expr
    cases as with
    | nil => exact absurd rfl hne
    | cons a as =>
      obtain ⟨c, hc⟩ := this a (by simp)
      obtain ⟨cs, hcs⟩ := largs_text fun e he => this e (List.mem_cons_of_mem _ he)
      exact .parens ⟨_, .lambda hc hcs (gapTxt_space _ _) (gapTxt_space _ _) hd⟩
  | _, .app (f := f) (x := x) h1 h2, ind, hi => by
    obtain ⟨c1, k1⟩ := expr_text h1 ind hi
    obtain ⟨c2, k2⟩ := expr_text h2 ind hi
    exact .parens ⟨_, .eApp (.app (es := [x]) k1 (.args (gapTxt_space _ _) k2 .args0))⟩
  | _, .binop ho h1 h2, ind, hi => by
    obtain ⟨c1, k1⟩ := expr_text h1 ind hi
    obtain ⟨c2, k2⟩ := (expr_text h2 ind hi).expr
    exact .parens ⟨_, .binop (.app k1 .args0) (gapTxt_space _ _) ho whites_space (by simp) k2⟩

theorem target_text : {e : Expr} → WFTarget e → ∀ ind, ind < 4294967296 → HasText ind (.target e)
  | _, .var h, _, _ => by
    obtain ⟨c, h⟩ := WFVar.text h
    exact ⟨_, .tVar h⟩
  | _, .list (es := es) h, ind, hi => by
    have := fun e he => expr_text (h e he) ind hi
    cases es with
    | nil => exact ⟨_, .tList0 (.inl rfl)⟩
    | cons e es =>
      obtain ⟨c, hc⟩ := (this e (by simp)).expr
      obtain ⟨cs, hcs⟩ := items_text fun e he => this e (List.mem_cons_of_mem _ he)
      exact ⟨_, .tList (.inl rfl) hc.low hcs.low (.inl rfl)⟩
  | _, .tuple (es := es) h, ind, hi => by
    have := fun e he => expr_text (h e he) ind hi
    cases es with
    | nil => exact ⟨_, .tTuple0⟩
    | cons e es =>
      obtain ⟨c, hc⟩ := (this e (by simp)).expr
      obtain ⟨cs, hcs⟩ := comps_text fun e he => this e (List.mem_cons_of_mem _ he)
      exact ⟨_, .tTuple whites_space whites_space hc.low hcs.low⟩
  | _, .record h, _, _ => by
    obtain ⟨c, h⟩ := simpBody_text h
    exact ⟨_, .tRecord h⟩

theorem entry_text : {l : LetEntry} → WFEntry l → ∀ ind, ind < 4294967296 → HasText ind (.entry l)
  | _, .binding h1 h2, ind, hi => by
    obtain ⟨c, hc⟩ := target_text h1 ind hi
    obtain ⟨d, hd⟩ := (expr_text h2 ind hi).expr
    exact ⟨_, .binding hc (gapTxt_space _ _) (gapTxt_space _ _) hd⟩
  | _, .function h hf, ind, hi => by
    obtain ⟨c, hc⟩ := function_text hf ind hi
    exact ⟨_, .function h hc⟩

theorem function_text : {f : Function} → WFFunction f → ∀ ind, ind < 4294967296 →
    HasText ind (.fn f)
  | _, .mk (sg := sg) hs hn ha he, ind, hi => by
    have := fun e he => expr_text (ha e he) ind hi
    obtain ⟨d, hd⟩ := (expr_text he ind hi).expr
    obtain ⟨m, hm⟩ := fnName_text hn
    obtain ⟨cs, hcs⟩ := fargs_text this
    have hdef := SrcAt.defn (j := ind + 1) hm hcs spacesTxt_space (gapTxt_space _ _) hd
    cases sg with
    | none => exact ⟨_, .fn hdef⟩
    | some g =>
      obtain ⟨h1, h2⟩ := hs g rfl
      obtain ⟨m', hm'⟩ := fnName_text h1
      obtain ⟨⟨c, hc⟩, -⟩ := wfTy_text h2
      exact ⟨_, .fnSig hm' spacesTxt_space (gapTxt_space _ _) (hc ind) (Nat.mod_eq_of_lt hi) hdef⟩
end

end ElmParser
