import Verif.Spec.Replace
import Verif.Proofs.Lower
import Verif.Proofs.Spans

/-! The text of a part of an expression can be replaced by the text of any term. -/
namespace ElmParser
open Spec

/-- Somewhere in `c` stands a text of `e`, and any term in its place gives a text of `C` with the term. -/
def Repl (st : Prop) (ind j : Nat) (c : Str) (e : Expr) (C : Expr → Cat) : Prop :=
  ∃ a d b i k, c = a ++ (d ++ b) ∧ k ≤ i + 1 ∧ SrcAt st i k (.expr e) d ∧
    ∀ d' e', SrcAt st i k (.term e') d' → SrcAt st ind j (C e') (a ++ (d' ++ b))

theorem Repl.map {st : Prop} {ind j ind' j' : Nat} {c c' : Str} {e : Expr} {C C' : Expr → Cat} (A B : Str)
    (h : Repl st ind j c e C) (hc : c' = A ++ (c ++ B))
    (hm : ∀ x y, SrcAt st ind j (C x) y → SrcAt st ind' j' (C' x) (A ++ (y ++ B))) : Repl st ind' j' c' e C' := by
  obtain ⟨a, d, b, i, k, rfl, hk, h1, h2⟩ := h
  refine ⟨A ++ a, d, b ++ B, i, k, by simp [hc], hk, h1, fun d' e' h => ?_⟩
  have := hm _ _ (h2 d' e' h)
  simpa using this

/-- What is to be shown about a text of each category. -/
def Goal (st : Prop) (ind j : Nat) (c : Str) : Cat → Prop
  | .closed t => ∀ (K : ExprCtx) e, K ≠ .here → K.Proper e → t = K.fill e → Repl st ind j c e fun x => .closed (K.fill x)
  | .term t => ∀ (K : ExprCtx) e, K.Proper e → t = K.fill e → Repl st ind j c e fun x => .term (K.fill x)
  | .app t => ∀ (K : ExprCtx) e, K.Proper e → t = K.fill e → Repl st ind j c e fun x => .app (K.fill x)
  | .expr t => ∀ (K : ExprCtx) e, K.Proper e → t = K.fill e → Repl st ind j c e fun x => .expr (K.fill x)
  | .args es => ∀ b (K : ExprCtx) a e, K.Proper e → es = b ++ K.fill e :: a →
      Repl st ind j c e fun x => .args (b ++ K.fill x :: a)
  | .items es => ∀ b (K : ExprCtx) a e, K.Proper e → es = b ++ K.fill e :: a →
      Repl st ind j c e fun x => .items (b ++ K.fill x :: a)
  | .comps es => ∀ b (K : ExprCtx) a e, K.Proper e → es = b ++ K.fill e :: a →
      Repl st ind j c e fun x => .comps (b ++ K.fill x :: a)
  | .largs es => ∀ b (K : ExprCtx) a e, K.Proper e → es = b ++ K.fill e :: a →
      Repl st ind j c e fun x => .largs (b ++ K.fill x :: a)
  | .fargs es => ∀ b (K : ExprCtx) a e, K.Proper e → es = b ++ K.fill e :: a →
      Repl st ind j c e fun x => .fargs (b ++ K.fill x :: a)
  | .field f => ∀ n (K : ExprCtx) e, K.Proper e → f = (n, K.fill e) → Repl st ind j c e fun x => .field (n, K.fill x)
  | .upd f => ∀ n (K : ExprCtx) e, K.Proper e → f = (n, K.fill e) → Repl st ind j c e fun x => .upd (n, K.fill x)
  | .fields fs => ∀ b n (K : ExprCtx) a e, K.Proper e → fs = b ++ (n, K.fill e) :: a →
      Repl st ind j c e fun x => .fields (b ++ (n, K.fill x) :: a)
  | .upds fs => ∀ b n (K : ExprCtx) a e, K.Proper e → fs = b ++ (n, K.fill e) :: a →
      Repl st ind j c e fun x => .upds (b ++ (n, K.fill x) :: a)
  | .defn d => (∀ n as (K : ExprCtx) e, K.Proper e → d = .mk n as (K.fill e) →
      Repl st ind j c e fun x => .defn (.mk n as (K.fill x))) ∧
      ∀ n b (K : ExprCtx) a t e, K.Proper e → d = .mk n (b ++ K.fill e :: a) t →
        Repl st ind j c e fun x => .defn (.mk n (b ++ K.fill x :: a) t)
  | .fn f => (∀ sg n as (K : ExprCtx) e, K.Proper e → f = .mk sg (.mk n as (K.fill e)) →
      Repl st ind j c e fun x => .fn (.mk sg (.mk n as (K.fill x)))) ∧
      ∀ sg n b (K : ExprCtx) a t e, K.Proper e → f = .mk sg (.mk n (b ++ K.fill e :: a) t) →
        Repl st ind j c e fun x => .fn (.mk sg (.mk n (b ++ K.fill x :: a) t))
  | .entry l => ∀ (K : EntryCtx) e, K.Proper e → l = K.fill e → Repl st ind j c e fun x => .entry (K.fill x)
  | .entries ls => ∀ b (K : EntryCtx) a e, K.Proper e → ls = b ++ K.fill e :: a →
      Repl st ind j c e fun x => .entries (b ++ K.fill x :: a)
  | .branch l => ∀ (K : BranchCtx) e, K.Proper e → l = K.fill e → Repl st ind j c e fun x => .branch (K.fill x)
  | .branches ls => ∀ b (K : BranchCtx) a e, K.Proper e → ls = b ++ K.fill e :: a →
      Repl st ind j c e fun x => .branches (b ++ K.fill x :: a)
  | .target _ => True

/-- Where a part of an application is. -/
theorem app_ctx {es : List Expr} {t e : Expr} {K : ExprCtx} (hp : K.Proper e) (h : es.foldl .Application t = K.fill e) :
    (∃ K' : ExprCtx, K'.Proper e ∧ t = K'.fill e ∧ ∀ x, K.fill x = es.foldl .Application (K'.fill x)) ∨
    (∃ b a, ∃ K' : ExprCtx, K'.Proper e ∧ es = b ++ K'.fill e :: a ∧
      ∀ x, K.fill x = (b ++ K'.fill x :: a).foldl .Application t) ∨
    (∃ b a, es = b ++ a ∧ e = b.foldl .Application t ∧ ∀ x, K.fill x = a.foldl .Application x) := by
  obtain ⟨rs, rfl⟩ : ∃ rs : List Expr, es = rs.reverse := ⟨es.reverse, by simp⟩
  induction rs generalizing K with
  | nil => exact .inl ⟨K, hp, h, fun _ => rfl⟩
  | cons y rs ih =>
    rw [List.reverse_cons] at h ⊢
    generalize rs.reverse = es at *
    rw [List.foldl_append] at h
    cases K with
    | here => exact .inr (.inr ⟨es ++ [y], [], by simp, by rw [List.foldl_append]; exact h.symm, fun _ => rfl⟩)
    | argument f k =>
      simp only [List.foldl_cons, List.foldl_nil, ExprCtx.fill, Expr.Application.injEq] at h
      obtain ⟨rfl, rfl⟩ := h
      exact .inr (.inl ⟨es, [], k, hp, rfl, fun x => by simp [ExprCtx.fill]⟩)
    | function k z =>
      simp only [List.foldl_cons, List.foldl_nil, ExprCtx.fill, Expr.Application.injEq] at h
      obtain ⟨h, rfl⟩ := h
      rcases ih (K := k) hp h with ⟨K', h0, h1, h2⟩ | ⟨b, a, K', h0, h1, h2⟩ | ⟨b, a, h1, h2, h3⟩
      · exact .inl ⟨K', h0, h1, fun x => by simp [ExprCtx.fill, h2]⟩
      · exact .inr (.inl ⟨b, a ++ [y], K', h0, by simp [h1], fun x => by simp [ExprCtx.fill, h2]⟩)
      · exact .inr (.inr ⟨b, a ++ [y], by simp [h1], h2, fun x => by simp [ExprCtx.fill, h3]⟩)
    | _ => simp [ExprCtx.fill] at h

theorem args_split {st : Prop} {ind j : Nat} {b a : List Expr} {c : Str} (h : SrcAt st ind j (.args (b ++ a)) c) :
    ∃ c1 c2, c = c1 ++ c2 ∧ SrcAt st ind j (.args b) c1 ∧ SrcAt st ind j (.args a) c2 := by
  induction b generalizing c with
  | nil => exact ⟨[], c, rfl, .args0, h⟩
  | cons e b ih =>
    cases h with
    | args h1 h2 h3 =>
      obtain ⟨c1, c2, rfl, h4, h5⟩ := ih h3
      exact ⟨_, c2, by simp, .args h1 h2 h4, h5⟩

theorem term_any {st : Prop} {ind j : Nat} {e : Expr} {c : Str} (h : SrcAt st ind j (.term e) c) (j' : Nat) :
    SrcAt st ind j' (.term e) c := by
  cases h with
  | var h => exact .var h
  | access h1 h2 => exact .access h1 h2
  | accessFn h => exact .accessFn h
  | str0 => exact .str0
  | int h => exact .int h
  | float h => exact .float h
  | closed h =>
    refine .closed ?_
    cases h with
    | str1 h1 h2 => exact .str1 h1 h2
    | str3 h => exact .str3 h
    | char h => exact .char h
    | parens h => exact .parens h
    | list0 h => exact .list0 h
    | list h1 h2 h3 h4 => exact .list h1 h2 h3 h4
    | tuple0 => exact .tuple0
    | tuple1 h1 h2 h3 h4 => exact .tuple1 h1 h2 h3 h4
    | tuple h1 h2 h3 h4 h5 => exact .tuple h1 h2 h3 h4 h5
    | record0 h => exact .record0 h
    | record h1 h2 h3 h4 => exact .record h1 h2 h3 h4
    | simp h => exact .simp h
    | update h1 h2 h3 h4 h5 h6 h7 => exact .update h1 h2 h3 h4 h5 h6 h7
    | update0 h1 h2 h3 h4 h5 => exact .update0 h1 h2 h3 h4 h5

theorem app_one {st : Prop} {ind j : Nat} {e : Expr} {c : Str} (h : SrcAt st ind j (.term e) c) :
    SrcAt st ind j (.app e) c := by
  have := SrcAt.app h (es := []) .args0
  rwa [List.append_nil] at this

theorem repl_here {st : Prop} {ind j : Nat} {e : Expr} {c : Str} {C : Expr → Cat} (hj : j ≤ ind + 1) (h : SrcAt st ind j (.expr e) c)
    (hC : ∀ x y, SrcAt st ind j (.term x) y → SrcAt st ind j (C x) y) : Repl st ind j c e C :=
  ⟨[], c, [], ind, j, by simp, hj, h, fun d' e' h => by simpa [ExprCtx.fill, EntryCtx.fill, BranchCtx.fill] using hC _ _ h⟩

theorem cons_ctx {α : Type} {x : α} {xs b a : List α} {y : α} (h : x :: xs = b ++ y :: a) :
    (b = [] ∧ x = y ∧ xs = a) ∨ ∃ b', b = x :: b' ∧ xs = b' ++ y :: a := by
  cases b with
  | nil => exact .inl ⟨rfl, (List.cons.inj h).1, (List.cons.inj h).2⟩
  | cons z b => exact .inr ⟨b, by rw [(List.cons.inj h).1], (List.cons.inj h).2⟩

theorem simpBody_pun {fs : List (Name × Expr)} {c : Str} (h : SimpBody fs c) : ∀ f ∈ fs, f.2 = .Variable [f.1] := by
  have hf : ∀ {fs c}, SimpFields fs c → ∀ f ∈ fs, f.2 = .Variable [f.1] := by
    intro fs c h
    induction h with
    | nil => simp
    | cons _ _ _ _ ih => exact List.forall_mem_cons.2 ⟨rfl, ih⟩
  cases h with
  | nil => simp
  | cons _ _ _ h => exact List.forall_mem_cons.2 ⟨rfl, hf h⟩

theorem after_ctx {α : Type} (b : List α) (x : α) (a : List α) (j k : Nat) : after (b ++ x :: a) j k = k := by
  cases b <;> rfl

local macro "jle" : tactic => `(tactic| first
  | exact Nat.zero_le _
  | omega
  | exact after_le (by omega) (by omega))

theorem src_replace {st : Prop} {ind j : Nat} {k : Cat} {c : Str} (h : SrcAt st ind j k c) : j ≤ ind + 1 →
    Goal st ind j c k := by
  induction h with
  | var h =>
    intro hj K e _ hK
    cases K with
    | here => cases hK; exact repl_here hj (.eApp (app_one (.var h))) fun _ _ h => h
    | _ => simp [ExprCtx.fill] at hK
  | access h1 h2 =>
    intro hj K e _ hK
    cases K with
    | here => cases hK; exact repl_here hj (.eApp (app_one (.access h1 h2))) fun _ _ h => h
    | _ => simp [ExprCtx.fill] at hK
  | accessFn h =>
    intro hj K e _ hK
    cases K with
    | here => cases hK; exact repl_here hj (.eApp (app_one (.accessFn h))) fun _ _ h => h
    | _ => simp [ExprCtx.fill] at hK
  | str0 =>
    intro hj K e _ hK
    cases K with
    | here => cases hK; exact repl_here hj (.eApp (app_one .str0)) fun _ _ h => h
    | _ => simp [ExprCtx.fill] at hK
  | int h =>
    intro hj K e _ hK
    cases K with
    | here => cases hK; exact repl_here hj (.eApp (app_one (.int h))) fun _ _ h => h
    | _ => simp [ExprCtx.fill] at hK
  | float h =>
    intro hj K e _ hK
    cases K with
    | here => cases hK; exact repl_here hj (.eApp (app_one (.float h))) fun _ _ h => h
    | _ => simp [ExprCtx.fill] at hK
  | closed h ih =>
    intro hj K e hp hK
    by_cases hh : K = .here
    · subst hh; cases hK; exact repl_here hj (.eApp (app_one (.closed h))) fun _ _ h => h
    · exact (ih (by jle) K e hh hp hK).map [] [] (by simp) fun x y h => by simpa [ExprCtx.fill, EntryCtx.fill, BranchCtx.fill] using .closed h
  | str1 h1 h2 => intro hj K e hh _ hK; cases K <;> simp [ExprCtx.fill] at hK hh
  | str3 h => intro hj K e hh _ hK; cases K <;> simp [ExprCtx.fill] at hK hh
  | char h => intro hj K e hh _ hK; cases K <;> simp [ExprCtx.fill] at hK hh
  | parens _ ih => exact fun hj K e _ hp hK => (ih (by jle) K e hp hK).map c!"(" c!")" (by simp) fun x y h => by simpa [ExprCtx.fill, EntryCtx.fill, BranchCtx.fill] using SrcAt.parens h
  | list0 h => intro hj K e hh _ hK; cases K <;> simp [ExprCtx.fill] at hK hh
  | @list _ _ _ _ g1 g2 c cs h1 h2 h3 h4 ih1 ih2 =>
    intro hj K e hh hp hK
    cases K with
    | list b k a =>
      simp only [ExprCtx.fill, Expr.List.injEq] at hK
      rcases cons_ctx hK with ⟨rfl, h, rfl⟩ | ⟨b', rfl, h⟩
      · exact (ih1 (by jle) k e hp h).map (c!"[" ++ g1) (cs ++ g2 ++ c!"]") (by simp) fun x y h => by simpa [ExprCtx.fill, EntryCtx.fill, BranchCtx.fill] using SrcAt.list h1 h h3 h4
      · exact (ih2 (by jle) b' k a e hp h).map (c!"[" ++ g1 ++ c) (g2 ++ c!"]") (by simp) fun x y h => by simpa [ExprCtx.fill, EntryCtx.fill, BranchCtx.fill] using SrcAt.list h1 h2 h h4
    | here => exact absurd rfl hh
    | _ => simp [ExprCtx.fill] at hK
  | tuple0 => intro hj K e hh _ hK; cases K <;> simp [ExprCtx.fill] at hK hh
  | @tuple1 _ _ _ w1 w2 c h1 h2 h3 h4 ih =>
    intro hj K e hh hp hK
    cases K with
    | tuple b k a =>
      simp only [ExprCtx.fill, Expr.Tuple.injEq] at hK
      rcases cons_ctx hK with ⟨rfl, h, rfl⟩ | ⟨b', rfl, h⟩
      · exact (ih (by jle) k e hp h).map (c!"(" ++ w1) (w2 ++ c!")") (by simp) fun x y h => by simpa [ExprCtx.fill, EntryCtx.fill, BranchCtx.fill] using SrcAt.tuple1 h1 h2 h3 h
      · simp at h
    | here => exact absurd rfl hh
    | _ => simp [ExprCtx.fill] at hK
  | @tuple _ _ _ es w1 w2 c cs h1 h2 h3 h4 h5 ih1 ih2 =>
    intro hj K e hh hp hK
    cases K with
    | tuple b k a =>
      simp only [ExprCtx.fill, Expr.Tuple.injEq] at hK
      rcases cons_ctx hK with ⟨rfl, h, rfl⟩ | ⟨b', rfl, h⟩
      · exact (ih1 (by jle) k e hp h).map (c!"(" ++ w1) (w2 ++ cs ++ c!")") (by simp) fun x y h => by
          simpa [ExprCtx.fill] using SrcAt.tuple h1 h2 h h4 h5
      · exact (ih2 (by jle) b' k a e hp h).map (c!"(" ++ w1 ++ c ++ w2) c!")" (by simp) fun x y h => by
          simpa [ExprCtx.fill] using SrcAt.tuple h1 h2 h3 h (by simp)
    | here => exact absurd rfl hh
    | _ => simp [ExprCtx.fill] at hK
  | record0 h => intro hj K e hh _ hK; cases K <;> simp [ExprCtx.fill] at hK hh
  | @record _ _ _ _ g1 g2 c cs h1 h2 h3 h4 ih1 ih2 =>
    intro hj K e hh hp hK
    cases K with
    | record b n k a =>
      simp only [ExprCtx.fill, Expr.Record.injEq] at hK
      rcases cons_ctx hK with ⟨rfl, h, rfl⟩ | ⟨b', rfl, h⟩
      · exact (ih1 (by jle) n k e hp.2 h).map (c!"{" ++ g1) (cs ++ g2 ++ c!"}") (by simp) fun x y h => by
          simpa [ExprCtx.fill] using SrcAt.record h1 h h3 h4
      · exact (ih2 (by jle) b' n k a e hp.2 h).map (c!"{" ++ g1 ++ c) (g2 ++ c!"}") (by simp) fun x y h => by
          simpa [ExprCtx.fill] using SrcAt.record h1 h2 h h4
    | here => exact absurd rfl hh
    | _ => simp [ExprCtx.fill] at hK
  | simp h =>
    intro hj K e hh hp hK
    cases K with
    | record b n k a =>
      simp only [ExprCtx.fill, Expr.Record.injEq] at hK
      exact absurd (simpBody_pun h (n, k.fill e) (by rw [hK]; simp)) hp.1
    | here => exact absurd rfl hh
    | _ => simp [ExprCtx.fill] at hK
  | @update _ _ n _ _ g1 g2 w g3 _ c cs h1 h2 h3 h4 h5 h6 h7 ih1 ih2 =>
    intro hj K e hh hp hK
    cases K with
    | update r b m k a =>
      simp only [ExprCtx.fill, Expr.RecordUpdate.injEq] at hK
      obtain ⟨rfl, hK⟩ := hK
      rcases cons_ctx hK with ⟨rfl, h, rfl⟩ | ⟨b', rfl, h⟩
      · exact (ih1 (by jle) m k e hp h).map (c!"{" ++ g1 ++ n ++ g2 ++ c!"|" ++ w) (cs ++ g3 ++ c!"}") (by simp) fun x y h => by
          simpa [ExprCtx.fill] using SrcAt.update h1 h2 h3 h4 h h6 h7
      · exact (ih2 (by jle) b' m k a e hp h).map (c!"{" ++ g1 ++ n ++ g2 ++ c!"|" ++ w ++ c) (g3 ++ c!"}") (by simp) fun x y h => by
          simpa [ExprCtx.fill] using SrcAt.update h1 h2 h3 h4 h5 h h7
    | here => exact absurd rfl hh
    | _ => simp [ExprCtx.fill] at hK
  | update0 h1 h2 h3 h4 h5 => intro hj K e hh _ hK; cases K <;> simp [ExprCtx.fill] at hK hh
  | items0 => intro hj b K a e _ h; simp at h
  | @items _ _ _ _ g1 g2 c cs h1 h2 h3 h4 ih1 ih2 =>
    intro hj b K a e hp hK
    rcases cons_ctx hK with ⟨rfl, h, rfl⟩ | ⟨b', rfl, h⟩
    · exact (ih1 (by jle) K e hp h).map (g1 ++ c!"," ++ g2) cs (by simp) fun x y h => by simpa [ExprCtx.fill, EntryCtx.fill, BranchCtx.fill] using SrcAt.items h1 h2 h h4
    · exact (ih2 (by jle) b' K a e hp h).map (g1 ++ c!"," ++ g2 ++ c) [] (by simp) fun x y h => by simpa [ExprCtx.fill, EntryCtx.fill, BranchCtx.fill] using SrcAt.items h1 h2 h3 h
  | comps0 => intro hj b K a e _ h; simp at h
  | @comps _ _ _ _ w1 w2 c cs h1 h2 h3 h4 ih1 ih2 =>
    intro hj b K a e hp hK
    rcases cons_ctx hK with ⟨rfl, h, rfl⟩ | ⟨b', rfl, h⟩
    · exact (ih1 (by jle) K e hp h).map (c!"," ++ w1) (w2 ++ cs) (by simp) fun x y h => by simpa [ExprCtx.fill, EntryCtx.fill, BranchCtx.fill] using SrcAt.comps h1 h2 h h4
    · exact (ih2 (by jle) b' K a e hp h).map (c!"," ++ w1 ++ c ++ w2) [] (by simp) fun x y h => by simpa [ExprCtx.fill, EntryCtx.fill, BranchCtx.fill] using SrcAt.comps h1 h2 h3 h
  | @field _ _ n _ g1 g2 _ h1 h2 h3 _ ih =>
    intro hj m K e hp hK
    simp only [Prod.mk.injEq] at hK
    obtain ⟨rfl, hK⟩ := hK
    exact (ih (by jle) K e hp hK).map (n ++ g1 ++ c!"=" ++ g2) [] (by simp) fun x y h => by simpa [ExprCtx.fill, EntryCtx.fill, BranchCtx.fill] using SrcAt.field h1 h2 h3 h
  | fields0 => intro hj b n K a e _ h; simp at h
  | @fields _ _ _ _ g1 g2 c cs h1 h2 h3 h4 ih1 ih2 =>
    intro hj b n K a e hp hK
    rcases cons_ctx hK with ⟨rfl, h, rfl⟩ | ⟨b', rfl, h⟩
    · exact (ih1 (by jle) n K e hp h).map (g1 ++ c!"," ++ g2) cs (by simp) fun x y h => by simpa [ExprCtx.fill, EntryCtx.fill, BranchCtx.fill] using SrcAt.fields h1 h2 h h4
    · exact (ih2 (by jle) b' n K a e hp h).map (g1 ++ c!"," ++ g2 ++ c) [] (by simp) fun x y h => by simpa [ExprCtx.fill, EntryCtx.fill, BranchCtx.fill] using SrcAt.fields h1 h2 h3 h
  | @upd _ _ n _ w1 w2 _ h1 h2 h3 _ ih =>
    intro hj m K e hp hK
    simp only [Prod.mk.injEq] at hK
    obtain ⟨rfl, hK⟩ := hK
    exact (ih (by jle) K e hp hK).map (n ++ w1 ++ c!"=" ++ w2) [] (by simp) fun x y h => by simpa [ExprCtx.fill, EntryCtx.fill, BranchCtx.fill] using SrcAt.upd h1 h2 h3 h
  | upds0 => intro hj b n K a e _ h; simp at h
  | @upds _ _ _ _ g1 g2 c cs h1 h2 h3 h4 ih1 ih2 =>
    intro hj b n K a e hp hK
    rcases cons_ctx hK with ⟨rfl, h, rfl⟩ | ⟨b', rfl, h⟩
    · exact (ih1 (by jle) n K e hp h).map (g1 ++ c!"," ++ g2) cs (by simp) fun x y h => by simpa [ExprCtx.fill, EntryCtx.fill, BranchCtx.fill] using SrcAt.upds h1 h2 h h4
    · exact (ih2 (by jle) b' n K a e hp h).map (g1 ++ c!"," ++ g2 ++ c) [] (by simp) fun x y h => by simpa [ExprCtx.fill, EntryCtx.fill, BranchCtx.fill] using SrcAt.upds h1 h2 h3 h
  | args0 => intro hj b K a e _ h; simp at h
  | @args _ _ _ _ _ g c cs h1 h2 h3 ih1 ih2 =>
    intro hj b K a e hp hK
    rcases cons_ctx hK with ⟨rfl, h, rfl⟩ | ⟨b', rfl, h⟩
    · exact (ih1 (by jle) K e hp h).map g cs (by simp) fun x y h => by simpa [ExprCtx.fill, EntryCtx.fill, BranchCtx.fill] using SrcAt.args h1 h h3
    · exact (ih2 (by jle) b' K a e hp h).map (g ++ c) [] (by simp) fun x y h => by simpa [ExprCtx.fill, EntryCtx.fill, BranchCtx.fill] using SrcAt.args h1 h2 h
  | @app _ _ t es c cs h1 h2 ih1 ih2 =>
    intro hj K e hp hK
    rcases app_ctx hp hK with ⟨K', h3, h4, h5⟩ | ⟨b, a, K', h3, h4, h5⟩ | ⟨b, a, rfl, rfl, h5⟩
    · exact (ih1 (by jle) K' e h3 h4).map [] cs (by simp) fun x y h => by rw [h5]; simpa using SrcAt.app h h2
    · exact (ih2 (by jle) b K' a e h3 h4).map c [] (by simp) fun x y h => by rw [h5]; simpa using SrcAt.app h1 h
    · obtain ⟨c1, c2, rfl, h6, h7⟩ := args_split h2
      exact ⟨[], c ++ c1, c2, _, _, by simp, hj, .eApp (.app h1 h6), fun d' e' h => by
        show SrcAt _ _ _ (.app (K.fill e')) _
        rw [h5]; simpa using SrcAt.app h h7⟩
  | eApp h ih => exact fun hj K e hp hK => (ih (by jle) K e hp hK).map [] [] (by simp) fun x y h => by simpa [ExprCtx.fill, EntryCtx.fill, BranchCtx.fill] using SrcAt.eApp h
  | @binop _ _ _ _ o _ c g w d h1 h2 h3 h4 h5 h6 ih1 ih2 =>
    intro hj K e hp hK
    cases K with
    | here => cases hK; exact repl_here hj (.binop h1 h2 h3 h4 h5 h6) fun _ _ h => .eApp (app_one h)
    | left o' k b =>
      simp only [ExprCtx.fill, Expr.BinOp.injEq] at hK
      obtain ⟨rfl, hK, rfl⟩ := hK
      exact (ih1 (by jle) k e hp hK).map [] (g ++ o ++ w ++ d) (by simp) fun x y h => by simpa [ExprCtx.fill, EntryCtx.fill, BranchCtx.fill] using SrcAt.binop h h2 h3 h4 h5 h6
    | right o' a k =>
      simp only [ExprCtx.fill, Expr.BinOp.injEq] at hK
      obtain ⟨rfl, rfl, hK⟩ := hK
      exact (ih2 (by jle) k e hp hK).map (c ++ g ++ o ++ w) [] (by simp) fun x y h => by simpa [ExprCtx.fill, EntryCtx.fill, BranchCtx.fill] using SrcAt.binop h1 h2 h3 h4 h5 h
    | _ => simp [ExprCtx.fill] at hK
  | @let_ _ _ _ _ _ l ls _ g1 c cs g2 g3 d h1 h2 h3 h4 h5 h6 ih1 ih2 ih3 =>
    intro hj K e hp hK
    cases K with
    | here => cases hK; exact repl_here hj (.let_ h1 h2 h3 h4 h5 h6) fun _ _ h => .eApp (app_one h)
    | letEntry b k a t =>
      simp only [ExprCtx.fill, Expr.Let.injEq] at hK
      obtain ⟨hK, rfl⟩ := hK
      rcases cons_ctx hK with ⟨rfl, h, rfl⟩ | ⟨b', rfl, h⟩
      · exact (ih1 (by jle) k e hp h).map (c!"let" ++ g1) (cs ++ g2 ++ c!"in" ++ g3 ++ d) (by simp) fun x y h => by
          simpa [ExprCtx.fill] using SrcAt.let_ h1 h h3 h4 h5 h6
      · refine (ih2 (by jle) b' k a e hp h).map (c!"let" ++ g1 ++ c) (g2 ++ c!"in" ++ g3 ++ d) (by simp) fun x y h' => ?_
        rw [h, after_ctx] at h2
        simpa [ExprCtx.fill] using SrcAt.let_ h1 (by rw [after_ctx]; exact h2) h' h4 h5 h6
    | letBody ls' k =>
      simp only [ExprCtx.fill, Expr.Let.injEq] at hK
      obtain ⟨rfl, hK⟩ := hK
      exact (ih3 (by jle) k e hp hK).map (c!"let" ++ g1 ++ c ++ cs ++ g2 ++ c!"in" ++ g3) [] (by simp) fun x y h => by
        simpa [ExprCtx.fill] using SrcAt.let_ h1 h2 h3 h4 h5 h
    | _ => simp [ExprCtx.fill] at hK
  | @case_ _ _ _ _ _ _ _ _ g1 c g2 g3 d ds h1 h2 h3 h4 h5 h6 h7 ih1 ih2 ih3 =>
    intro hj K e hp hK
    have hi := gap_ge h4
    cases K with
    | here => cases hK; exact repl_here hj (.case_ h1 h2 h3 h4 h5 h6 h7) fun _ _ h => .eApp (app_one h)
    | caseOf k bs =>
      simp only [ExprCtx.fill, Expr.Case.injEq] at hK
      obtain ⟨hK, rfl⟩ := hK
      exact (ih1 (by jle) k e hp hK).map (c!"case" ++ g1) (g2 ++ c!"of" ++ g3 ++ d ++ ds) (by simp) fun x y h => by
        simpa [ExprCtx.fill] using SrcAt.case_ h1 h h3 h4 h5 h6 h7
    | caseBranch t b k a =>
      simp only [ExprCtx.fill, Expr.Case.injEq] at hK
      obtain ⟨rfl, hK⟩ := hK
      rcases cons_ctx hK with ⟨rfl, h, rfl⟩ | ⟨b', rfl, h⟩
      · exact (ih2 (by jle) k e hp h).map (c!"case" ++ g1 ++ c ++ g2 ++ c!"of" ++ g3) ds (by simp) fun x y h => by
          simpa [ExprCtx.fill] using SrcAt.case_ h1 h2 h3 h4 h5 h h7
      · refine (ih3 (by jle) b' k a e hp h).map (c!"case" ++ g1 ++ c ++ g2 ++ c!"of" ++ g3 ++ d) [] (by simp) fun x y h' => ?_
        rw [h, after_ctx] at h6
        simpa [ExprCtx.fill] using SrcAt.case_ h1 h2 h3 h4 h5 (by rw [after_ctx]; exact h6) h'
    | _ => simp [ExprCtx.fill] at hK
  | @if_ _ _ _ _ _ _ _ _ _ _ g1 c1 g2 g3 c2 g4 g5 c3 h1 h2 h3 h4 h5 h6 h7 h8 ih1 ih2 ih3 =>
    intro hj K e hp hK
    have hi := gap_ge h7
    cases K with
    | here => cases hK; exact repl_here hj (.if_ h1 h2 h3 h4 h5 h6 h7 h8) fun _ _ h => .eApp (app_one h)
    | ifTest k b c =>
      simp only [ExprCtx.fill, Expr.If.injEq] at hK
      obtain ⟨hK, rfl, rfl⟩ := hK
      exact (ih1 (by jle) k e hp hK).map (c!"if" ++ g1) (g2 ++ c!"then" ++ g3 ++ c2 ++ g4 ++ c!"else" ++ g5 ++ c3) (by simp)
        fun x y h => by simpa [ExprCtx.fill, EntryCtx.fill, BranchCtx.fill] using SrcAt.if_ h1 h h3 h4 h5 h6 h7 h8
    | ifThen a k c =>
      simp only [ExprCtx.fill, Expr.If.injEq] at hK
      obtain ⟨rfl, hK, rfl⟩ := hK
      exact (ih2 (by jle) k e hp hK).map (c!"if" ++ g1 ++ c1 ++ g2 ++ c!"then" ++ g3) (g4 ++ c!"else" ++ g5 ++ c3) (by simp)
        fun x y h => by simpa [ExprCtx.fill, EntryCtx.fill, BranchCtx.fill] using SrcAt.if_ h1 h2 h3 h4 h h6 h7 h8
    | ifElse a b k =>
      simp only [ExprCtx.fill, Expr.If.injEq] at hK
      obtain ⟨rfl, rfl, hK⟩ := hK
      exact (ih3 (by jle) k e hp hK).map (c!"if" ++ g1 ++ c1 ++ g2 ++ c!"then" ++ g3 ++ c2 ++ g4 ++ c!"else" ++ g5) [] (by simp)
        fun x y h => by simpa [ExprCtx.fill, EntryCtx.fill, BranchCtx.fill] using SrcAt.if_ h1 h2 h3 h4 h5 h6 h7 h
    | _ => simp [ExprCtx.fill] at hK
  | @lambda _ _ _ _ _ _ _ c cs g1 g2 d h1 h2 h3 h4 h5 ih1 ih2 ih3 =>
    intro hj K e hp hK
    have hi := gap_ge h4
    cases K with
    | here => cases hK; exact repl_here hj (.lambda h1 h2 h3 h4 h5) fun _ _ h => .eApp (app_one h)
    | lambdaArg b k a body =>
      simp only [ExprCtx.fill, Expr.Lambda.injEq] at hK
      obtain ⟨hK, rfl⟩ := hK
      rcases cons_ctx hK with ⟨rfl, h, rfl⟩ | ⟨b', rfl, h⟩
      · exact (ih1 (by jle) k e hp h).map c!"\\" (cs ++ g1 ++ c!"->" ++ g2 ++ d) (by simp) fun x y h => by
          simpa [ExprCtx.fill] using SrcAt.lambda h h2 h3 h4 h5
      · exact (ih2 (by jle) b' k a e hp h).map (c!"\\" ++ c) (g1 ++ c!"->" ++ g2 ++ d) (by simp) fun x y h => by
          simpa [ExprCtx.fill] using SrcAt.lambda h1 h h3 h4 h5
    | lambdaBody as k =>
      simp only [ExprCtx.fill, Expr.Lambda.injEq] at hK
      obtain ⟨rfl, hK⟩ := hK
      exact (ih3 (by jle) k e hp hK).map (c!"\\" ++ c ++ cs ++ g1 ++ c!"->" ++ g2) [] (by simp) fun x y h => by
        simpa [ExprCtx.fill] using SrcAt.lambda h1 h2 h3 h4 h
    | _ => simp [ExprCtx.fill] at hK
  | largs0 => intro hj b K a e _ h; simp at h
  | @largs _ _ _ _ w c cs h1 h2 h3 ih1 ih2 =>
    intro hj b K a e hp hK
    rcases cons_ctx hK with ⟨rfl, h, rfl⟩ | ⟨b', rfl, h⟩
    · exact (ih1 (by jle) K e hp h).map w cs (by simp) fun x y h => by simpa [ExprCtx.fill, EntryCtx.fill, BranchCtx.fill] using SrcAt.largs h1 h h3
    · exact (ih2 (by jle) b' K a e hp h).map (w ++ c) [] (by simp) fun x y h => by simpa [ExprCtx.fill, EntryCtx.fill, BranchCtx.fill] using SrcAt.largs h1 h2 h
  | fargs0 => intro hj b K a e _ h; simp at h
  | @fargs _ _ _ _ w c cs h1 h2 h3 ih1 ih2 =>
    intro hj b K a e hp hK
    rcases cons_ctx hK with ⟨rfl, h, rfl⟩ | ⟨b', rfl, h⟩
    · exact (ih1 (by jle) K e hp h).map w cs (by simp) fun x y h => by simpa [ExprCtx.fill, EntryCtx.fill, BranchCtx.fill] using SrcAt.fargs h1 h h3
    · exact (ih2 (by jle) b' K a e hp h).map (w ++ c) [] (by simp) fun x y h => by simpa [ExprCtx.fill, EntryCtx.fill, BranchCtx.fill] using SrcAt.fargs h1 h2 h
  | @defn _ _ _ _ _ _ m cs w g d h1 h2 h3 h4 h5 ih1 ih2 =>
    intro hj
    have hi := gap_gt h4
    constructor
    · intro n as K e hp hK
      cases hK
      exact (ih2 (by jle) K e hp rfl).map (m ++ cs ++ w ++ c!"=" ++ g) [] (by simp) fun x y h => by
        simpa [ExprCtx.fill] using SrcAt.defn h1 h2 h3 h4 h
    · intro n b K a t e hp hK
      cases hK
      exact (ih1 (by jle) b K a e hp rfl).map m (w ++ c!"=" ++ g ++ d) (by simp) fun x y h => by
        simpa [ExprCtx.fill] using SrcAt.defn h1 h h3 h4 h5
  | fn _ ih =>
    intro hj
    constructor
    · intro sg n as K e hp hK
      cases hK
      exact ((ih hj).1 n as K e hp rfl).map [] [] (by simp) fun x y h => by simpa [ExprCtx.fill, EntryCtx.fill, BranchCtx.fill] using SrcAt.fn h
    · intro sg n b K a t e hp hK
      cases hK
      exact ((ih hj).2 n b K a t e hp rfl).map [] [] (by simp) fun x y h => by simpa [ExprCtx.fill, EntryCtx.fill, BranchCtx.fill] using SrcAt.fn h
  | @fnSig _ _ _ _ _ _ m w g k c1 c h1 h2 h3 h4 h5 _ ih =>
    intro hj
    constructor
    · intro sg n as K e hp hK
      cases hK
      exact ((ih hj).1 n as K e hp rfl).map (m ++ w ++ c!":" ++ g ++ c1 ++ '\n' :: sp k) [] (by simp) fun x y h => by
        simpa [ExprCtx.fill] using SrcAt.fnSig h1 h2 h3 h4 h5 h
    · intro sg n b K a t e hp hK
      cases hK
      exact ((ih hj).2 n b K a t e hp rfl).map (m ++ w ++ c!":" ++ g ++ c1 ++ '\n' :: sp k) [] (by simp) fun x y h => by
        simpa [ExprCtx.fill] using SrcAt.fnSig h1 h2 h3 h4 h5 h
  | @binding _ _ _ _ _ _ c g1 g2 _ h1 h2 h3 _ ih1 ih2 =>
    intro hj K e hp hK
    have hi := gap_ge h3
    cases K with
    | binding t k =>
      simp only [EntryCtx.fill, LetEntry.LetBinding.injEq] at hK
      obtain ⟨rfl, hK⟩ := hK
      exact (ih2 (by jle) k e hp hK).map (c ++ g1 ++ c!"=" ++ g2) [] (by simp) fun x y h => by
        simpa [EntryCtx.fill] using SrcAt.binding h1 h2 h3 h
    | _ => simp [EntryCtx.fill] at hK
  | function hs _ ih =>
    intro hj K e hp hK
    cases K with
    | body sg n as k =>
      simp only [EntryCtx.fill, LetEntry.LetFunction.injEq] at hK
      cases hK
      exact ((ih hj).1 _ _ _ k e hp rfl).map [] [] (by simp) fun x y h => by
        simpa [EntryCtx.fill] using SrcAt.function hs h
    | arg sg n b k a t =>
      simp only [EntryCtx.fill, LetEntry.LetFunction.injEq] at hK
      cases hK
      exact ((ih hj).2 _ _ b k a _ e hp rfl).map [] [] (by simp) fun x y h => by
        simpa [EntryCtx.fill] using SrcAt.function (.inr (by simp)) h
    | _ => simp [EntryCtx.fill] at hK
  | entries0 => intro hj b K a e _ h; simp at h
  | @entries _ _ _ _ _ g c cs h1 h2 h3 h4 ih1 ih2 =>
    intro hj b K a e hp hK
    rcases cons_ctx hK with ⟨rfl, h, rfl⟩ | ⟨b', rfl, h⟩
    · exact (ih1 (by jle) K e hp h).map g cs (by simp) fun x y h => by simpa using SrcAt.entries h1 h2 h h4
    · refine (ih2 (by jle) b' K a e hp h).map (g ++ c) [] (by simp) fun x y h' => ?_
      rw [h, after_ctx] at h3
      simpa using SrcAt.entries h1 h2 (by rw [after_ctx]; exact h3) h'
  | @branch _ _ _ _ _ _ c g1 g2 d h1 h2 h3 h4 h5 ih1 ih2 =>
    intro hj K e hp hK
    have hi := gap_ge h3
    cases K with
    | pattern k t =>
      simp only [BranchCtx.fill, Prod.mk.injEq] at hK
      obtain ⟨hK, rfl⟩ := hK
      exact (ih1 (by jle) k e hp hK).map [] (g1 ++ c!"->" ++ g2 ++ d) (by simp) fun x y h => by
        simpa [BranchCtx.fill] using SrcAt.branch h h2 h3 h4 h5
    | body p k =>
      simp only [BranchCtx.fill, Prod.mk.injEq] at hK
      obtain ⟨rfl, hK⟩ := hK
      exact (ih2 (by jle) k e hp hK).map (c ++ g1 ++ c!"->" ++ g2) [] (by simp) fun x y h => by
        simpa [BranchCtx.fill] using SrcAt.branch h1 h2 h3 h4 h
  | branches0 => intro hj b K a e _ h; simp at h
  | @branches _ _ _ _ _ g c cs h1 h2 h3 h4 ih1 ih2 =>
    intro hj b K a e hp hK
    rcases cons_ctx hK with ⟨rfl, h, rfl⟩ | ⟨b', rfl, h⟩
    · exact (ih1 (by jle) K e hp h).map g cs (by simp) fun x y h => by simpa using SrcAt.branches h1 h2 h h4
    · refine (ih2 (by jle) b' K a e hp h).map (g ++ c) [] (by simp) fun x y h' => ?_
      rw [h, after_ctx] at h3
      simpa using SrcAt.branches h1 h2 (by rw [after_ctx]; exact h3) h'
  | _ => exact fun _ => trivial

end ElmParser
