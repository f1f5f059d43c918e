import Verif.Spec.Rearrange
import Verif.Proofs.Flat
import Verif.Proofs.ExprText
import Verif.Props.Exprs

/-! C77: the entries of a `let` and the branches of a `case` can be put in another order, left out, repeated and combined. -/
namespace ElmParser
open Spec

/-! ### Texts of the documented grammar -/

theorem onLines_entries {i j : Nat} (hi : i < 4294967296) (ps : List (LetEntry × Str)) (hj : j ≤ i + 1)
    (h : ∀ p ∈ ps, Src True i (.entry p.1) p.2) : SrcAt True i j (.entries (ps.map (·.1))) (onLines i (ps.map (·.2))) := by
  induction ps with
  | nil => exact .entries0
  | cons p ps ih =>
    exact .entries (gapTxt_line (ir := .EQ) rfl hi) (fun _ => by simp) ((h p (by simp)).low (after_bound hj))
      (ih fun q hq => h q (List.mem_cons_of_mem _ hq))

theorem onLines_branches {i j : Nat} (hi : i < 4294967296) (ps : List ((Expr × Expr) × Str)) (hj : j ≤ i + 1)
    (h : ∀ p ∈ ps, Src True i (.branch p.1) p.2) : SrcAt True i j (.branches (ps.map (·.1))) (onLines i (ps.map (·.2))) := by
  induction ps with
  | nil => exact .branches0
  | cons p ps ih =>
    exact .branches (gapTxt_line (ir := .EQ) rfl hi) (fun _ => by simp) ((h p (by simp)).low (after_bound hj))
      (ih fun q hq => h q (List.mem_cons_of_mem _ hq))

theorem letText_src {ind i j k : Nat} (hi : ind ≤ i) (hi' : i < 4294967296) (hj : ind ≤ j) (hj' : j < 4294967296)
    {ps : List (LetEntry × Str)} (hne : ps ≠ []) (h : ∀ p ∈ ps, Src True i (.entry p.1) p.2) {e : Expr} {d : Str}
    (hd : SrcAt True ind k (.expr e) d) : SrcAt True ind k (.expr (.Let (ps.map (·.1)) e)) (letText i j (ps.map (·.2)) d) := by
  cases ps with
  | nil => exact absurd rfl hne
  | cons p ps =>
    have := SrcAt.let_ (gapTxt_line (ir := .GTE) hi hi') ((h p (by simp)).low (after_bound (bs := ps.map (·.1)) (Nat.zero_le _)))
      (onLines_entries hi' ps (Nat.zero_le _) fun q hq => h q (List.mem_cons_of_mem _ hq))
      (gapTxt_line (ir := .GTE) hj hj') (gapTxt_space ind .GTE) hd
    simpa [letText, onLines] using this

theorem caseText_src {ind i k : Nat} (hi : ind ≤ i) (hi' : i < 4294967296) (hk : k ≤ i)
    {ps : List ((Expr × Expr) × Str)} (hne : ps ≠ []) (h : ∀ p ∈ ps, Src True i (.branch p.1) p.2) {e : Expr} {d : Str}
    (hd : SrcAt True ind 0 (.expr e) d) : SrcAt True ind k (.expr (.Case e (ps.map (·.1)))) (caseText i d (ps.map (·.2))) := by
  cases ps with
  | nil => exact absurd rfl hne
  | cons p ps =>
    have := SrcAt.case_ (st := True) (gapTxt_space ind .GTE) hd (gapTxt_space ind .GTE) (gapTxt_line (ir := .GTE) hi hi') (fun _ => hk)
      ((h p (by simp)).low (after_bound (bs := ps.map (·.1)) (Nat.le_succ_of_le hk)))
      (onLines_branches hi' ps (Nat.le_succ_of_le hk) fun q hq => h q (List.mem_cons_of_mem _ hq))
    simpa [caseText, onLines] using this

/-- C77: texts of the documented grammar that are entries in column `i`, in whatever order and number, each on a line of its
own, make a `let` with exactly these entries. -/
theorem C77_let_grammar {ind i j : Nat} (hi : ind ≤ i) (hi' : i < 4294967296) (hj : ind ≤ j) (hj' : j < 4294967296)
    {ps : List (LetEntry × Str)} (hne : ps ≠ []) (h : ∀ p ∈ ps, Src True i (.entry p.1) p.2) {e : Expr} {d r : Str}
    (hd : Src True ind (.expr e) d) (hr : Stop ind r) :
    expression ind (letText i j (ps.map (·.2)) d ++ r) = .ok (.Let (ps.map (·.1)) e) r :=
  expression_complete (letText_src hi hi' hj hj' hne h hd) hr

/-- C77: the same for the branches of a `case`, which have to stand to the right of what may follow on a new line. -/
theorem C77_case_grammar {ind i : Nat} (hi : ind ≤ i) (hi' : i < 4294967296)
    {ps : List ((Expr × Expr) × Str)} (hne : ps ≠ []) (h : ∀ p ∈ ps, Src True i (.branch p.1) p.2) {e : Expr} {d r : Str}
    (hd : Src True ind (.expr e) d) (hr : ind < i ∧ Stop ind r ∨ StopAt 0 r) :
    expression ind (caseText i d (ps.map (·.2)) ++ r) = .ok (.Case e (ps.map (·.1))) r := by
  rcases hr with ⟨h1, h2⟩ | hr
  · exact expression_complete (caseText_src hi hi' h1 hne h hd.low) h2
  · exact src_complete (caseText_src hi hi' (Nat.zero_le i) hne h hd.low) (Nat.zero_le _) r hr

/-! ### Blocks without `let` and `case` inside -/

theorem entry_flat {st : Prop} {i k : Nat} {l : LetEntry} {c : Str} (h : SrcAt False i k (.entry l) c) (hl : FlatEntry l) (j : Nat) :
    SrcAt st i j (.entry l) c := by
  cases h.any (j' := j) with
  | binding h1 h2 h3 h4 => exact .binding (src_flat h1 hl.1) h2 h3 (src_flat h4 hl.2)
  | function h1 h2 => exact .function h1 (src_flat h2 hl)

theorem branch_flat {st : Prop} {i k : Nat} {b : Expr × Expr} {c : Str} (h : SrcAt False i k (.branch b) c) (hb : FlatBranch b)
    (hc : ¬ c!"->-" <:+: c) (j : Nat) : SrcAt st i j (.branch b) c := by
  cases h.any (j' := j) with
  | @branch _ _ _ _ p e c g1 g2 d h1 h2 h3 _ h5 =>
    refine .branch (src_flat h1 hb.1) h2 h3 ?_ (src_flat h5 hb.2)
    rintro - t rfl
    exact hc ⟨c ++ g1, t ++ d, by simp⟩

theorem letBindings_one {i : Nat} {l : LetEntry} {c : Str} (h : Src True i (.entry l) c) :
    letBindings expression i c = .ok [l] [] := by
  have := src_complete h (Nat.le_refl _) [] (Stop.at.2 (stop_nil i))
  rw [List.append_nil] at this
  refine (sepNonemptyList_iff (fun k => cons_gap k i .EQ) (fun k => cons_letEntryE k i)).2 ⟨l, [], [], rfl, this, .nil _, ?_⟩
  rw [preceded_apply, gap_none noGap_nil]
  rfl

theorem casesP_one {i : Nat} {b : Expr × Expr} {c : Str} (h : Src True i (.branch b) c) :
    casesP expression i c = .ok [b] [] := by
  have := src_complete h (Nat.le_refl _) [] (Stop.at.2 (stop_nil i))
  rw [List.append_nil] at this
  refine (sepNonemptyList_iff (fun k => cons_gap k i .EQ) (fun k => cons_caseBranchE k i)).2 ⟨b, [], [], rfl, this, .nil _, ?_⟩
  rw [preceded_apply, gap_none noGap_nil]
  rfl

theorem letBindings_src {i : Nat} {l : LetEntry} {c : Str} (h : letBindings expression i c = .ok [l] []) :
    Src False i (.entry l) c := by
  obtain ⟨l, ls, s1, e, h1, h2⟩ := sepNonemptyList_steps h
  cases e; cases h2
  obtain ⟨c, rfl, hc⟩ := letEntry_sound eSound_expression h1
  simpa using hc

theorem casesP_src {i : Nat} {b : Expr × Expr} {c : Str} (h : casesP expression i c = .ok [b] []) :
    Src False i (.branch b) c := by
  obtain ⟨l, ls, s1, e, h1, h2⟩ := sepNonemptyList_steps h
  cases e; cases h2
  obtain ⟨c, rfl, hc⟩ := caseBranch_sound eSound_expression h1
  simpa using hc

theorem expression_src {i : Nat} {e : Expr} {d : Str} (h : expression i d = .ok e []) (he : Flat e) : Src True i (.expr e) d := by
  obtain ⟨c, ec, hc⟩ := eSound_expression h
  rw [List.append_nil] at ec
  subst ec
  exact src_flat hc he

/-- C77: texts each of which alone is read as one entry in column `i` are, in any order, each on a line of its own, a `let`
with exactly these entries. -/
theorem C77_let_join {ind i j : Nat} (hi : ind ≤ i) (hi' : i < 4294967296) (hj : ind ≤ j) (hj' : j < 4294967296)
    {ps : List (LetEntry × Str)} (hne : ps ≠ []) (h : ∀ p ∈ ps, FlatEntry p.1 ∧ letBindings expression i p.2 = .ok [p.1] [])
    {e : Expr} {d r : Str} (he : Flat e) (hd : expression ind d = .ok e []) (hr : Stop ind r) :
    expression ind (letText i j (ps.map (·.2)) d ++ r) = .ok (.Let (ps.map (·.1)) e) r :=
  C77_let_grammar hi hi' hj hj' hne (fun p hp => entry_flat (letBindings_src (h p hp).2) (h p hp).1 _) (expression_src hd he) hr

/-- C77: the same for the branches of a `case`. -/
theorem C77_case_join {ind i : Nat} (hi : ind ≤ i) (hi' : i < 4294967296) {ps : List ((Expr × Expr) × Str)} (hne : ps ≠ [])
    (h : ∀ p ∈ ps, FlatBranch p.1 ∧ ¬ c!"->-" <:+: p.2 ∧ casesP expression i p.2 = .ok [p.1] [])
    {e : Expr} {d r : Str} (he : Flat e) (hd : expression ind d = .ok e []) (hr : ind < i ∧ Stop ind r ∨ StopAt 0 r) :
    expression ind (caseText i d (ps.map (·.2)) ++ r) = .ok (.Case e (ps.map (·.1))) r :=
  C77_case_grammar hi hi' hne (fun p hp => branch_flat (casesP_src (h p hp).2.2) (h p hp).1 (h p hp).2.1 _)
    (expression_src hd he) hr

theorem entries_pieces {i j : Nat} {ls : List LetEntry} {c : Str} (h : SrcAt False i j (.entries ls) c) (hl : ∀ l ∈ ls, FlatEntry l) :
    ∃ ps : List (LetEntry × Str), ps.map (·.1) = ls ∧ (∀ p ∈ ps, Src True i (.entry p.1) p.2) ∧
      ∀ cs s, InOrder cs s → InOrder (ps.map (·.2) ++ cs) (c ++ s) := by
  generalize hk : Cat.entries ls = k at h
  induction h generalizing ls with
  | entries0 => cases hk; exact ⟨[], rfl, by simp, fun _ _ h => h⟩
  | @entries _ _ _ l ls g c cs _ _ h3 _ _ ih =>
    cases hk
    obtain ⟨ps, h4, h5, h6⟩ := ih (fun l h => hl l (List.mem_cons_of_mem _ h)) rfl
    refine ⟨(l, c) :: ps, by simp [h4], List.forall_mem_cons.2 ⟨entry_flat h3 (hl l (by simp)) _, h5⟩, fun xs s h => ?_⟩
    rw [List.append_assoc (g ++ c)]
    exact .cons (h6 xs s h)
  | _ => cases hk

theorem branches_pieces {i j : Nat} {bs : List (Expr × Expr)} {c : Str} (h : SrcAt False i j (.branches bs) c)
    (hb : ∀ b ∈ bs, FlatBranch b) (hc : ¬ c!"->-" <:+: c) :
    ∃ ps : List ((Expr × Expr) × Str), ps.map (·.1) = bs ∧ (∀ p ∈ ps, Src True i (.branch p.1) p.2) ∧
      ∀ cs s, InOrder cs s → InOrder (ps.map (·.2) ++ cs) (c ++ s) := by
  generalize hk : Cat.branches bs = k at h
  induction h generalizing bs with
  | branches0 => cases hk; exact ⟨[], rfl, by simp, fun _ _ h => h⟩
  | @branches _ _ _ b bs g c cs _ _ h3 _ _ ih =>
    cases hk
    have hc1 : ¬ c!"->-" <:+: c := fun h => hc (h.trans ⟨g, cs, rfl⟩)
    have hc2 : ¬ c!"->-" <:+: cs := fun h => hc (h.trans ⟨g ++ c, [], by simp⟩)
    obtain ⟨ps, h4, h5, h6⟩ := ih (fun l h => hb l (List.mem_cons_of_mem _ h)) hc2 rfl
    refine ⟨(b, c) :: ps, by simp [h4], List.forall_mem_cons.2 ⟨branch_flat h3 (hb b (by simp)) hc1 _, h5⟩, fun xs s h => ?_⟩
    rw [List.append_assoc (g ++ c)]
    exact .cons (h6 xs s h)
  | _ => cases hk

theorem Spec.InOrder.pre {cs : List Str} {s : Str} (u : Str) (h : InOrder cs s) : InOrder cs (u ++ s) := by
  cases h with
  | nil => exact .nil
  | @cons v c cs s h =>
    have := InOrder.cons (u := u ++ v) (c := c) h
    simpa using this

theorem Spec.InOrder.post {cs : List Str} {s : Str} (t : Str) (h : InOrder cs s) : InOrder cs (s ++ t) := by
  induction h with
  | nil => exact .nil
  | cons _ ih => rw [List.append_assoc]; exact .cons ih

theorem foldl_notApp {es : List Expr} {a e : Expr} (h : es.foldl .Application a = e) (he : ∀ f x, e ≠ .Application f x) :
    es = [] ∧ a = e := by
  rcases List.eq_nil_or_concat es with rfl | ⟨xs, x, rfl⟩
  · exact ⟨rfl, h⟩
  · rw [List.concat_eq_append, List.foldl_append] at h
    exact absurd h.symm (he _ _)

/-- The categories of something read as `e`. -/
def IsExpr (e : Expr) : Cat → Prop
  | .expr a | .app a | .term a | .closed a => a = e
  | _ => False

theorem let_pieces {ind j : Nat} {k : Cat} {c : Str} (h : SrcAt False ind j k c) {ls : List LetEntry} {e : Expr}
    (hk : IsExpr (.Let ls e) k) (hl : ∀ l ∈ ls, FlatEntry l) (he : Flat e) (hind : ind < 4294967296) :
    ∃ i d, ∃ ps : List (LetEntry × Str), ind ≤ i ∧ i < 4294967296 ∧ ps.map (·.1) = ls ∧ InOrder (ps.map (·.2) ++ [d]) c ∧
      Src True ind (.expr e) d ∧ ∀ p ∈ ps, Src True i (.entry p.1) p.2 := by
  induction h with
  | @let_ ind _ i _ _ l ls e' g1 c cs g2 g3 d h1 h2 h3 h4 h5 h6 =>
    cases hk
    obtain ⟨ps, k1, k2, k3⟩ := entries_pieces h3 fun l h => hl l (List.mem_cons_of_mem _ h)
    have hi : ind ≤ i ∧ i < 4294967296 := by
      obtain ⟨_, _, -, -, -, ⟨-, rfl⟩ | ⟨-, rfl, h⟩⟩ := h1
      · exact ⟨Nat.le_refl _, hind⟩
      · exact ⟨h, Nat.mod_lt _ (by decide)⟩
    refine ⟨i, d, (l, c) :: ps, hi.1, hi.2, by simp [k1], ?_, src_flat h6.any he,
      List.forall_mem_cons.2 ⟨entry_flat h2 (hl l (by simp)) _, k2⟩⟩
    have := InOrder.cons (u := c!"let" ++ g1) (c := c) (k3 [d] (g2 ++ c!"in" ++ g3 ++ d ++ []) (.cons .nil))
    simpa using this
  | eApp _ ih => exact ih hk hind
  | closed _ ih => exact ih hk hind
  | parens _ ih =>
    obtain ⟨i, d, ps, h1, h2, h3, h4, h5⟩ := ih hk hind
    exact ⟨i, d, ps, h1, h2, h3, (h4.pre _).post _, h5⟩
  | app h1 h2 ih1 _ =>
    obtain ⟨rfl, h⟩ := foldl_notApp hk (by simp)
    obtain ⟨i, d, ps, h1, h2, h3, h4, h5⟩ := ih1 h hind
    exact ⟨i, d, ps, h1, h2, h3, h4.post _, h5⟩
  | _ => cases hk

theorem case_pieces {ind j : Nat} {k : Cat} {c : Str} (h : SrcAt False ind j k c) {bs : List (Expr × Expr)} {e : Expr}
    (hk : IsExpr (.Case e bs) k) (hb : ∀ b ∈ bs, FlatBranch b) (he : Flat e) (hind : ind < 4294967296) (hs : ¬ c!"->-" <:+: c) :
    ∃ i d, ∃ ps : List ((Expr × Expr) × Str), ind ≤ i ∧ i < 4294967296 ∧ ps.map (·.1) = bs ∧ InOrder (d :: ps.map (·.2)) c ∧
      Src True ind (.expr e) d ∧ ∀ p ∈ ps, Src True i (.branch p.1) p.2 := by
  induction h with
  | @case_ ind _ _ _ i _ b bs g1 d g2 g3 c cs h1 h2 h3 h4 _ h5 h6 =>
    cases hk
    have hs1 : ¬ c!"->-" <:+: c := fun h => hs (h.trans ⟨c!"case" ++ g1 ++ d ++ g2 ++ c!"of" ++ g3, cs, by simp⟩)
    have hs2 : ¬ c!"->-" <:+: cs := fun h => hs (h.trans ⟨c!"case" ++ g1 ++ d ++ g2 ++ c!"of" ++ g3 ++ c, [], by simp⟩)
    obtain ⟨ps, k1, k2, k3⟩ := branches_pieces h6 (fun l h => hb l (List.mem_cons_of_mem _ h)) hs2
    have hi : ind ≤ i ∧ i < 4294967296 := by
      obtain ⟨_, _, -, -, -, ⟨-, rfl⟩ | ⟨-, rfl, h⟩⟩ := h4
      · exact ⟨Nat.le_refl _, hind⟩
      · exact ⟨h, Nat.mod_lt _ (by decide)⟩
    refine ⟨i, d, (b, c) :: ps, hi.1, hi.2, by simp [k1], ?_, src_flat h2.any he,
      List.forall_mem_cons.2 ⟨branch_flat h5 (hb b (by simp)) hs1 _, k2⟩⟩
    have := k3 [] [] .nil
    have := InOrder.cons (u := c!"case" ++ g1) (c := d) (InOrder.cons (u := g2 ++ c!"of" ++ g3) (c := c) this)
    simpa using this
  | eApp _ ih => exact ih hk hind hs
  | closed _ ih => exact ih hk hind hs
  | @parens _ _ _ c _ ih =>
    obtain ⟨i, d, ps, h1, h2, h3, h4, h5⟩ := ih hk hind fun h => hs (h.trans ⟨c!"(", c!")", rfl⟩)
    exact ⟨i, d, ps, h1, h2, h3, (h4.pre _).post _, h5⟩
  | @app _ _ _ _ c cs h1 h2 ih1 _ =>
    obtain ⟨rfl, h⟩ := foldl_notApp hk (by simp)
    obtain ⟨i, d, ps, h1, h2, h3, h4, h5⟩ := ih1 h hind fun h => hs (h.trans ⟨[], cs, rfl⟩)
    exact ⟨i, d, ps, h1, h2, h3, h4.post _, h5⟩
  | _ => cases hk

/-- C77: a `let` that is read, with no further `let` or `case` in it, consists of texts that alone are read as its entries and
its body; and any selection of these texts, in any order and number, makes a `let` with the selected entries. -/
theorem C77_let {ind : Nat} (hind : ind < 4294967296) {s r : Str} {ls : List LetEntry} {e : Expr}
    (h : expression ind s = .ok (.Let ls e) r) (hl : ∀ l ∈ ls, FlatEntry l) (he : Flat e) :
    ∃ i d, ∃ ps : List (LetEntry × Str), ind ≤ i ∧ i < 4294967296 ∧ ps.map (·.1) = ls ∧ InOrder (ps.map (·.2) ++ [d]) s ∧
      expression ind d = .ok e [] ∧ (∀ p ∈ ps, letBindings expression i p.2 = .ok [p.1] []) ∧
      ∀ qs : List (LetEntry × Str), qs ≠ [] → (∀ q ∈ qs, q ∈ ps) → ∀ j, ind ≤ j → j < 4294967296 → ∀ t, Stop ind t →
        expression ind (letText i j (qs.map (·.2)) d ++ t) = .ok (.Let (qs.map (·.1)) e) t := by
  obtain ⟨c, rfl, hc⟩ := eSound_expression h
  obtain ⟨i, d, ps, h1, h2, h3, h4, h5, h6⟩ := let_pieces hc (by exact rfl) hl he hind
  exact ⟨i, d, ps, h1, h2, h3, h4.post r, by simpa using expression_complete h5 (stop_nil ind),
    fun p hp => letBindings_one (h6 p hp), fun qs hne hq j hj hj' t ht =>
      C77_let_grammar h1 h2 hj hj' hne (fun p hp => h6 p (hq p hp)) h5 ht⟩

/-- C77: the same for a `case`, if no comment or operator follows an arrow directly. -/
theorem C77_case {ind : Nat} (hind : ind < 4294967296) {s r : Str} {bs : List (Expr × Expr)} {e : Expr}
    (h : expression ind s = .ok (.Case e bs) r) (hb : ∀ b ∈ bs, FlatBranch b) (he : Flat e) (hs : ¬ c!"->-" <:+: s) :
    ∃ i d, ∃ ps : List ((Expr × Expr) × Str), ind ≤ i ∧ i < 4294967296 ∧ ps.map (·.1) = bs ∧ InOrder (d :: ps.map (·.2)) s ∧
      expression ind d = .ok e [] ∧ (∀ p ∈ ps, casesP expression i p.2 = .ok [p.1] []) ∧
      ∀ qs : List ((Expr × Expr) × Str), qs ≠ [] → (∀ q ∈ qs, q ∈ ps) → ∀ t, ind < i ∧ Stop ind t ∨ StopAt 0 t →
        expression ind (caseText i d (qs.map (·.2)) ++ t) = .ok (.Case e (qs.map (·.1))) t := by
  obtain ⟨c, rfl, hc⟩ := eSound_expression h
  obtain ⟨i, d, ps, h1, h2, h3, h4, h5, h6⟩ := case_pieces hc (by exact rfl) hb he hind
    fun h => hs (h.trans ⟨[], r, rfl⟩)
  exact ⟨i, d, ps, h1, h2, h3, h4.post r, by simpa using expression_complete h5 (stop_nil ind),
    fun p hp => casesP_one (h6 p hp), fun qs hne hq t ht =>
      C77_case_grammar h1 h2 hne (fun p hp => h6 p (hq p hp)) h5 ht⟩

/-! Cases. -/

/-- An entry over two lines, and a function. -/
theorem ex_entry1 : letBindings expression 4 c!"x =\n        f y" =
    .ok [.LetBinding (.Variable [c!"x"]) (.Application (.Variable [c!"f"]) (.Variable [c!"y"]))] [] := by rfl
theorem ex_entry2 : letBindings expression 4 c!"g a = a + 1" =
    .ok [.LetFunction (.mk none (.mk c!"g" [.Variable [c!"a"]]
      (.BinOp (.Variable [c!"+"]) (.Variable [c!"a"]) (.Integer c!"1"))))] [] := by rfl
/-- They can stand in both orders, and more than once. -/
example : expression 0 (letText 4 0 [c!"g a = a + 1", c!"x =\n        f y", c!"g a = a + 1"] c!"x" ++ c!")") =
    .ok (.Let [.LetFunction (.mk none (.mk c!"g" [.Variable [c!"a"]]
        (.BinOp (.Variable [c!"+"]) (.Variable [c!"a"]) (.Integer c!"1")))),
      .LetBinding (.Variable [c!"x"]) (.Application (.Variable [c!"f"]) (.Variable [c!"y"])),
      .LetFunction (.mk none (.mk c!"g" [.Variable [c!"a"]]
        (.BinOp (.Variable [c!"+"]) (.Variable [c!"a"]) (.Integer c!"1"))))] (.Variable [c!"x"])) c!")" :=
  C77_let_join (ind := 0) (i := 4) (j := 0) (by decide) (by decide) (by decide) (by decide)
    (ps := [(_, c!"g a = a + 1"), (_, c!"x =\n        f y"), (_, c!"g a = a + 1")]) (by simp)
    (by
      simp only [List.mem_cons, List.not_mem_nil, or_false]
      rintro p (rfl | rfl | rfl)
      · exact ⟨⟨by simp; exact .var, .binop .var .var .int⟩, ex_entry2⟩
      · exact ⟨⟨.var, .app .var .var⟩, ex_entry1⟩
      · exact ⟨⟨by simp; exact .var, .binop .var .var .int⟩, ex_entry2⟩)
    .var (d := c!"x") rfl ⟨by exact next_cons.2 (by decide), .inl ⟨next_cons.2 (by decide), by simp⟩⟩
example : letText 4 0 [c!"g a = a + 1", c!"x =\n        f y"] c!"x" =
    c!"let\n    g a = a + 1\n    x =\n        f y\nin x" := by rfl

theorem ex_branch1 : casesP expression 2 c!"Just a ->\n    f a" =
    .ok [(.Application (.Variable [c!"Just"]) (.Variable [c!"a"]), .Application (.Variable [c!"f"]) (.Variable [c!"a"]))] [] := by rfl
theorem ex_branch2 : casesP expression 2 c!"_ -> 0" = .ok [(.Variable [c!"_"], .Integer c!"0")] [] := by rfl
/-- Branches in another order. -/
example : expression 0 (caseText 2 c!"m" [c!"_ -> 0", c!"Just a ->\n    f a"] ++ []) =
    .ok (.Case (.Variable [c!"m"]) [(.Variable [c!"_"], .Integer c!"0"),
      (.Application (.Variable [c!"Just"]) (.Variable [c!"a"]), .Application (.Variable [c!"f"]) (.Variable [c!"a"]))]) [] :=
  C77_case_join (ind := 0) (i := 2) (by decide) (by decide)
    (ps := [(_, c!"_ -> 0"), (_, c!"Just a ->\n    f a")]) (by simp)
    (by
      simp only [List.mem_cons, List.not_mem_nil, or_false]
      rintro p (rfl | rfl)
      · exact ⟨⟨.var, .int⟩, by decide, ex_branch2⟩
      · exact ⟨⟨.app .var .var, .app .var .var⟩, by decide, ex_branch1⟩)
    .var (d := c!"m") rfl (.inl ⟨by decide, stop_nil 0⟩)
/-- An entry with a `let` inside. -/
theorem ex_entry3 : Src True 4 (.entry (.LetBinding (.Variable [c!"x"])
    (.Let [.LetBinding (.Variable [c!"y"]) (.Integer c!"1")] (.Variable [c!"y"])))) c!"x = let\n        y = 1\n      in y" :=
  .binding (.tVar (.lo ex_x)) (gapTxt_space 4 .GTE) (gapTxt_space 4 .GTE)
    (letText_src (i := 8) (j := 6) (by decide) (by decide) (by decide) (by decide)
      (ps := [(.LetBinding (.Variable [c!"y"]) (.Integer c!"1"), c!"y = 1")]) (by simp)
      (by
        simp only [List.mem_cons, List.not_mem_nil, or_false]
        rintro p rfl
        exact entry_flat (l := .LetBinding (.Variable [c!"y"]) (.Integer c!"1")) (letBindings_src rfl) ⟨.var, .int⟩ _)
      (expression_src (d := c!"y") rfl .var))
example := C77_let_grammar (ind := 0) (i := 4) (j := 0) (by decide) (by decide) (by decide) (by decide)
  (ps := [(_, c!"x = let\n        y = 1\n      in y"), (_, c!"g a = a + 1")]) (by simp)
  (by
    simp only [List.mem_cons, List.not_mem_nil, or_false]
    rintro p (rfl | rfl)
    · exact ex_entry3
    · exact entry_flat (letBindings_src ex_entry2) ⟨by simp; exact .var, .binop .var .var .int⟩ _)
  (expression_src (d := c!"x") rfl .var) (stop_nil 0)
/-- A branch with a `case` inside. -/
theorem ex_branch3 : Src True 2 (.branch (.Variable [c!"x"], .Case (.Variable [c!"m"]) [(.Variable [c!"_"], .Integer c!"0")]))
    c!"x -> case m of\n    _ -> 0" :=
  .branch ((expression_src (d := c!"x") rfl .var).low) (gapTxt_space 2 .GTE) (gapTxt_space 2 .GTE) (by simp)
    (caseText_src (i := 4) (by decide) (by decide) (by decide) (ps := [((.Variable [c!"_"], .Integer c!"0"), c!"_ -> 0")]) (by simp)
      (by
        simp only [List.mem_cons, List.not_mem_nil, or_false]
        rintro p rfl
        exact branch_flat (b := (.Variable [c!"_"], .Integer c!"0")) (casesP_src rfl) ⟨.var, .int⟩ (by decide) _)
      (expression_src (d := c!"m") rfl .var).low)
example := C77_case_grammar (ind := 0) (i := 2) (by decide) (by decide)
  (ps := [(_, c!"x -> case m of\n    _ -> 0"), (_, c!"_ -> 0")]) (by simp)
  (by
    simp only [List.mem_cons, List.not_mem_nil, or_false]
    rintro p (rfl | rfl)
    · exact ex_branch3
    · exact branch_flat (casesP_src ex_branch2) ⟨.var, .int⟩ (by decide) _)
  (expression_src (d := c!"m") rfl .var) (.inl ⟨by decide, stop_nil 0⟩)
/-- Why the branches have to stand further to the right: `\n  B -> 2` would end an expression at indentation 2, but is taken as
a further branch here. -/
example : expression 2 c!"case m of\n  A -> 1\n  B -> 2" = .ok (.Case (.Variable [c!"m"])
    [(.Variable [c!"A"], .Integer c!"1"), (.Variable [c!"B"], .Integer c!"2")]) [] := by rfl
/-- A `let` as it is read. -/
example := C77_let (ind := 0) (by decide) (s := c!"(let\n    x = 1\n    y = 2\n in (x, y)) )") (r := c!" )")
  (ls := [.LetBinding (.Variable [c!"x"]) (.Integer c!"1"), .LetBinding (.Variable [c!"y"]) (.Integer c!"2")])
  (e := .Tuple [.Variable [c!"x"], .Variable [c!"y"]]) rfl (by simp; exact ⟨⟨.var, .int⟩, .var, .int⟩)
  (.tuple (by simp; exact ⟨.var, .var⟩))
example := C77_case (ind := 0) (by decide) (s := c!"case m of\n  A -> 1\n\n  _ ->\n    2\nx") (r := c!"\nx")
  (bs := [(.Variable [c!"A"], .Integer c!"1"), (.Variable [c!"_"], .Integer c!"2")]) (e := .Variable [c!"m"])
  rfl (by simp; exact ⟨⟨.var, .int⟩, .var, .int⟩) .var (by decide)

end ElmParser
