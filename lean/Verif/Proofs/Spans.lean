import Verif.Spec.Spans
import Verif.Proofs.Flat
import Verif.Proofs.ExprComplete
import Verif.Proofs.StmtSound

/-! The layout relations place every part of a tree. -/
namespace ElmParser
open Spec

/-! ### Rows -/

section
variable {P Q : Node → Str → Prop}

theorem row_pre {ns : List Node} {c : Str} (a : Str) (h : Row P ns c) : Row P ns (a ++ c) := by
  cases h with
  | nil => exact .nil
  | @cons n ns b c d h1 h2 =>
    have : a ++ (b ++ c ++ d) = (a ++ b) ++ c ++ d := by simp
    rw [this]
    exact .cons h1 h2

theorem row_append {ms : List Node} {d : Str} (h2 : Row P ms d) :
    ∀ {ns : List Node} {c : Str}, Row P ns c → Row P (ns ++ ms) (c ++ d)
  | _, _, .nil => row_pre _ h2
  | _, _, .cons (a := a) (c := c) (d := e) h1 h => by
    have : (a ++ c ++ e) ++ d = a ++ c ++ (e ++ d) := by simp
    rw [this]
    exact .cons h1 (row_append h2 h)

theorem row_post {ns : List Node} {c : Str} (a : Str) (h : Row P ns c) : Row P ns (c ++ a) := by
  have := row_append (P := P) (ms := []) (d := a) .nil h
  rwa [List.append_nil] at this

theorem row_one {n : Node} {c : Str} (h : Placed P n c) : Row P [n] c := by
  have := Row.cons (a := []) h (Row.nil (P := P) (c := []))
  simpa using this

theorem row_cons {n : Node} {ns : List Node} {c d : Str} (h : Placed P n c) (h2 : Row P ns d) :
    Row P (n :: ns) (c ++ d) := row_append h2 (row_one h)

mutual
theorem Spec.Placed.mono (hPQ : ∀ n c, P n c → Q n c) : ∀ {n c}, Placed P n c → Placed Q n c
  | _, _, .mk h1 h2 => .mk (hPQ _ _ h1) (h2.mono hPQ)
theorem Spec.Row.mono (hPQ : ∀ n c, P n c → Q n c) : ∀ {ns c}, Row P ns c → Row Q ns c
  | _, _, .nil => .nil
  | _, _, .cons h1 h2 => .cons (h1.mono hPQ) (h2.mono hPQ)
end

theorem Spec.FileRow.mono (hPQ : ∀ n c, P n c → Q n c) {xs : List Statement} {c : Str} (h : FileRow P xs c) :
    FileRow Q xs c := by
  induction h with
  | nil => exact .nil
  | cons h1 _ ih => exact .cons (h1.mono hPQ) ih

theorem row_mem {n : Node} : ∀ {ns : List Node} {c : Str}, Row P ns c → n ∈ ns →
    ∃ a d b, c = a ++ d ++ b ∧ Placed P n d
  | _, _, .cons (a := a) (c := c) (d := d) h1 h2, hn => by
    rcases List.mem_cons.1 hn with rfl | hn
    · exact ⟨a, c, d, rfl, h1⟩
    · obtain ⟨x, y, z, rfl, h⟩ := row_mem h2 hn
      exact ⟨a ++ c ++ x, y, z, by simp, h⟩

theorem row_within {n : Node} {ns : List Node} (hn : Within n ns) : ∀ {c : Str}, Row P ns c →
    ∃ a d b, c = a ++ d ++ b ∧ Placed P n d := by
  induction hn with
  | here h => exact fun hr => row_mem hr h
  | deeper h _ ih =>
    intro c hr
    obtain ⟨a, d, b, rfl, hp⟩ := row_mem hr h
    cases hp with
    | mk _ h2 =>
      obtain ⟨x, y, z, rfl, h⟩ := ih h2
      exact ⟨a ++ x, y, z ++ b, by simp, h⟩

theorem Spec.Placed.rel {n : Node} {c : Str} (h : Placed P n c) : P n c := by cases h; assumption
theorem Spec.Placed.row {n : Node} {c : Str} (h : Placed P n c) : Row P (nodeParts n) c := by cases h; assumption
end

/-! ### The layout relations -/

/-- The piece is a layout of the part. -/
def LaidOut (st : Prop) : Node → Str → Prop
  | .expr e, c => ∃ i j, j ≤ i + 1 ∧ SrcAt st i j (.expr e) c
  | .target e, c => ∃ i j, j ≤ i + 1 ∧ SrcAt st i j (.target e) c
  | .type_ t, c => ∃ i, TySrc i (.ann t) c

/-- What is placed, for each category of types. -/
def tyPlace (st : Prop) (c : Str) : TyCat → Prop
  | .atom t | .par t | .ty t | .ann t => Placed (LaidOut st) (.type_ t) c
  | .args ts | .items ts => Row (LaidOut st) (ts.map .type_) c
  | .field f => Row (LaidOut st) [.type_ f.2] c
  | .fields fs => Row (LaidOut st) (fs.map fun f => .type_ f.2) c

theorem ty_place (st : Prop) {ind : Nat} {k : TyCat} {c : Str} (h : TySrc ind k c) : tyPlace st c k := by
  induction h with
  | var h => exact .mk ⟨0, .annTy (.tyAtom (.var h))⟩ .nil
  | @extRecord ind v f fs g1 g2 g3 g4 i1 i2 i3 i4 c cs h1 h2 h3 h4 h5 h6 h7 ih1 ih2 =>
    refine .mk ⟨ind, .annTy (.tyAtom (.extRecord h1 h2 h3 h4 h5 h6 h7))⟩ ?_
    have hv : Placed (LaidOut st) (.type_ (.TypeVariable v)) v := .mk ⟨0, .annTy (.tyAtom (.var h2))⟩ .nil
    have := row_pre (c!"{" ++ g1) (row_cons hv (row_pre (g2 ++ c!"|" ++ g3) (row_post (g4 ++ c!"}") (row_append ih2 ih1))))
    simpa [nodeParts, typeParts] using this
  | @record0 ind g h => exact .mk ⟨ind, .annTy (.tyAtom (.record0 h))⟩ .nil
  | @record ind f fs g1 g2 c cs h1 h2 h3 h4 ih1 ih2 =>
    refine .mk ⟨ind, .annTy (.tyAtom (.record h1 h2 h3 h4))⟩ ?_
    have := row_pre (c!"{" ++ g1) (row_post (g2 ++ c!"}") (row_append ih2 ih1))
    simpa [nodeParts, typeParts] using this
  | @tuple0 ind g h => exact .mk ⟨ind, .annTy (.tyAtom (.tuple0 h))⟩ .nil
  | @tuple ind t ts g1 g2 c cs h1 h2 h3 h4 ih1 ih2 =>
    refine .mk ⟨ind, .annTy (.tyAtom (.tuple h1 h2 h3 h4))⟩ ?_
    have := row_pre (c!"(" ++ g1) (row_post (g2 ++ c!")") (row_cons ih1 ih2))
    simpa [nodeParts, typeParts] using this
  | @parens ind t u g1 g2 w1 w2 c d h1 h2 h3 h4 h5 h6 ih1 ih2 =>
    refine .mk ⟨ind, .annTy (.tyAtom (.parens h1 h2 h3 h4 h5 h6))⟩ ?_
    have := row_pre (c!"(" ++ g1) (row_cons ih1 (row_pre (w1 ++ c!"->" ++ w2) (row_post (g2 ++ c!")") (row_one ih2))))
    simpa [nodeParts, typeParts] using this
  | parAtom _ ih => exact ih
  | @parConst ind ns h1 h2 =>
    have := TySrc.con (ind := ind) h1 h2 .args0
    rw [List.append_nil] at this
    exact .mk ⟨ind, .annTy this⟩ .nil
  | tyAtom _ ih => exact ih
  | @con ind ns ts cs h1 h2 h3 ih =>
    exact .mk ⟨ind, .annTy (.con h1 h2 h3)⟩ (row_pre _ ih)
  | args0 => exact .nil
  | args _ _ _ ih1 ih2 => exact .cons ih1 ih2
  | items0 => exact .nil
  | @items ind t ts g1 g2 c cs h1 h2 _ _ ih1 ih2 => exact .cons ih1 ih2
  | @field ind n t g1 g2 c h1 h2 h3 _ ih => exact row_pre _ (row_one ih)
  | fields0 => exact .nil
  | @fields ind f fs g1 g2 c cs h1 h2 h3 h4 ih1 ih2 =>
    have := row_pre (g1 ++ c!"," ++ g2) (row_append ih2 ih1)
    simpa [tyPlace] using this
  | annTy _ ih => exact ih
  | @annArrow ind t u w1 w2 c d h1 h2 h3 h4 ih1 ih2 =>
    refine .mk ⟨ind, .annArrow h1 h2 h3 h4⟩ ?_
    have := row_cons ih1 (row_pre (w1 ++ c!"->" ++ w2) (row_one ih2))
    simpa [nodeParts, typeParts] using this

theorem varText_place (st : Prop) {ns : List Name} {c : Str} (h : VarText ns c) :
    Placed (LaidOut st) (.expr (.Variable ns)) c := by
  have := SrcAt.app (st := st) (ind := 0) (j := 0) (.var h) .args0
  rw [List.append_nil] at this
  exact .mk ⟨0, 0, Nat.zero_le _, .eApp this⟩ .nil

theorem simpFields_place (st : Prop) {fs : List (Name × Expr)} {c : Str} (h : SimpFields fs c) :
    Row (LaidOut st) (fs.map fun f => .expr f.2) c := by
  induction h with
  | nil => exact .nil
  | @cons n w1 w2 fs cs h1 h2 h3 _ ih =>
    have := row_pre (c!"," ++ w1) (row_cons (varText_place st (.lo h1)) (row_pre w2 ih))
    simpa using this

theorem simpBody_place (st : Prop) {fs : List (Name × Expr)} {c : Str} (h : SimpBody fs c) :
    Row (LaidOut st) (fs.map fun f => .expr f.2) c := by
  cases h with
  | nil => exact .nil
  | @cons n w1 w2 fs cs h1 h2 h3 h =>
    have := row_pre w1 (row_cons (varText_place st (.lo h1)) (row_pre w2 (simpFields_place st h)))
    simpa using this

theorem term_expr {st : Prop} {ind j : Nat} {e : Expr} {c : Str} (h : SrcAt st ind j (.term e) c) :
    SrcAt st ind j (.expr e) c := by
  have := SrcAt.app h .args0
  rw [List.append_nil] at this
  exact .eApp this

theorem args_snoc {st : Prop} {ind j i : Nat} {es : List Expr} {cs : Str} {x : Expr} {g c : Str}
    (h : SrcAt st ind j (.args es) cs) (hg : GapTxt ind .GT i g) (hx : SrcAt st ind j (.term x) c) :
    SrcAt st ind j (.args (es ++ [x])) (cs ++ (g ++ c)) := by
  induction es generalizing cs with
  | nil =>
    cases h
    have := SrcAt.args hg hx .args0
    rwa [List.append_nil] at this
  | cons e es ih =>
    cases h with
    | @args _ _ _ _ _ g1 c1 cs1 h1 h2 h3 =>
      have := SrcAt.args h1 h2 (ih h3)
      simpa using this

/-- What is placed, for each category of expressions. -/
def exprPlace (st : Prop) (ind j : Nat) (c : Str) : Cat → Prop
  | .closed e => Row (LaidOut st) (exprParts e) c
  | .term e | .app e | .expr e => j ≤ ind + 1 → Placed (LaidOut st) (.expr e) c
  | .target e => j ≤ ind + 1 → Placed (LaidOut st) (.target e) c
  | .args es => j ≤ ind + 1 → ∀ {e ds c1 c2}, SrcAt st ind j (.term e) c1 → SrcAt st ind j (.args ds) c2 →
      Placed (LaidOut st) (.expr (ds.foldl .Application e)) (c1 ++ c2) →
      Placed (LaidOut st) (.expr ((ds ++ es).foldl .Application e)) (c1 ++ (c2 ++ c))
  | .items es | .comps es | .largs es | .fargs es => j ≤ ind + 1 → Row (LaidOut st) (es.map .expr) c
  | .field f | .upd f => Row (LaidOut st) [.expr f.2] c
  | .fields fs | .upds fs => Row (LaidOut st) (fs.map fun f => .expr f.2) c
  | .entry l => j ≤ ind + 1 → Row (LaidOut st) (entryParts l) c
  | .entries ls => j ≤ ind + 1 → Row (LaidOut st) (ls.flatMap entryParts) c
  | .defn (.mk _ as e) => j ≤ ind + 1 → Row (LaidOut st) (as.map .expr ++ [.expr e]) c
  | .fn f => j ≤ ind + 1 → Row (LaidOut st) (functionParts f) c
  | .branch b => j ≤ ind + 1 → Row (LaidOut st) [.expr b.1, .expr b.2] c
  | .branches bs => j ≤ ind + 1 → Row (LaidOut st) (bs.flatMap fun b => [.expr b.1, .expr b.2]) c

theorem gap_ge {ind i : Nat} {g : Str} (h : GapTxt ind .GTE i g) : ind ≤ i := by
  obtain ⟨_, _, _, _, _, ⟨_, h⟩ | ⟨_, _, h⟩⟩ := h
  · omega
  · exact h
theorem gap_gt {ind i : Nat} {g : Str} (h : GapTxt ind .GT i g) : ind ≤ i := by
  obtain ⟨_, _, _, _, _, ⟨_, h⟩ | ⟨_, _, h⟩⟩ := h
  · omega
  · exact Nat.le_of_lt h

theorem after_le {α : Type} {l : List α} {j k m : Nat} (h1 : j ≤ m) (h2 : k ≤ m) : after l j k ≤ m := by
  cases l <;> assumption

theorem expr_place {st : Prop} {ind j : Nat} {k : Cat} {c : Str} (h : SrcAt st ind j k c) : exprPlace st ind j c k := by
  induction h with
  | var h => exact fun _ => varText_place st h
  | access h1 h2 =>
    exact fun hj => .mk ⟨_, _, hj, term_expr (.access h1 h2)⟩ (row_post _ (row_one (varText_place st h1)))
  | accessFn h => exact fun hj => .mk ⟨_, _, hj, term_expr (.accessFn h)⟩ .nil
  | str0 => exact fun hj => .mk ⟨_, _, hj, term_expr .str0⟩ .nil
  | int h => exact fun hj => .mk ⟨_, _, hj, term_expr (.int h)⟩ .nil
  | float h => exact fun hj => .mk ⟨_, _, hj, term_expr (.float h)⟩ .nil
  | closed h ih => exact fun hj => .mk ⟨_, _, hj, term_expr (.closed h)⟩ ih
  | str1 => exact .nil
  | str3 => exact .nil
  | char => exact .nil
  | parens _ ih => exact row_post _ (row_pre _ (ih (Nat.zero_le _)).row)
  | list0 => exact .nil
  | @list ind j e es g1 g2 c cs h1 _ _ h4 ih1 ih2 =>
    have := row_pre (c!"[" ++ g1) (row_post (g2 ++ c!"]") (row_cons (ih1 (Nat.zero_le _)) (ih2 (Nat.zero_le _))))
    simpa [exprPlace, exprParts] using this
  | tuple0 => exact .nil
  | @tuple1 ind j e w1 w2 c h1 h2 h3 _ ih =>
    have := row_pre (c!"(" ++ w1) (row_post (w2 ++ c!")") (row_one (ih (Nat.zero_le _))))
    simpa [exprPlace, exprParts] using this
  | @tuple ind j e es w1 w2 c cs h1 h2 _ _ h5 ih1 ih2 =>
    have := row_pre (c!"(" ++ w1) (row_post c!")" (row_cons (ih1 (Nat.zero_le _)) (row_pre w2 (ih2 (Nat.zero_le _)))))
    simpa [exprPlace, exprParts] using this
  | record0 => exact .nil
  | @record ind j f fs g1 g2 c cs h1 _ _ h4 ih1 ih2 =>
    have := row_pre (c!"{" ++ g1) (row_post (g2 ++ c!"}") (row_append ih2 ih1))
    simpa [exprPlace, exprParts] using this
  | simp h => exact row_post _ (row_pre _ (simpBody_place st h))
  | @update ind j n f fs g1 g2 w g3 i c cs h1 h2 h3 h4 _ _ h7 ih1 ih2 =>
    have := row_pre (c!"{" ++ g1 ++ n ++ g2 ++ c!"|" ++ w) (row_post (g3 ++ c!"}") (row_append ih2 ih1))
    simpa [exprPlace, exprParts] using this
  | update0 => exact .nil
  | items0 => exact fun _ => .nil
  | items h1 h2 _ _ ih1 ih2 => exact fun _ => .cons (ih1 (Nat.zero_le _)) (ih2 (Nat.zero_le _))
  | comps0 => exact fun _ => .nil
  | @comps ind j e es w1 w2 c cs h1 h2 _ _ ih1 ih2 =>
    intro _
    have := row_pre (c!"," ++ w1) (row_cons (ih1 (Nat.zero_le _)) (row_pre w2 (ih2 (Nat.zero_le _))))
    simpa using this
  | field h1 h2 h3 _ ih => exact row_pre _ (row_one (ih (Nat.zero_le _)))
  | fields0 => exact .nil
  | @fields ind j f fs g1 g2 c cs h1 h2 _ _ ih1 ih2 =>
    have := row_pre (g1 ++ c!"," ++ g2) (row_append ih2 ih1)
    simpa [exprPlace] using this
  | upd h1 h2 h3 _ ih => exact row_pre _ (row_one (ih (Nat.zero_le _)))
  | upds0 => exact .nil
  | @upds ind j f fs g1 g2 c cs h1 h2 _ _ ih1 ih2 =>
    have := row_pre (g1 ++ c!"," ++ g2) (row_append ih2 ih1)
    simpa [exprPlace] using this
  | args0 => intro _ e ds c1 c2 _ _ h; simpa using h
  | @args ind j i x es g c cs h1 h2 _ ih1 ih2 =>
    intro hj e ds c1 c2 k1 k2 h
    have k3 := args_snoc k2 h1 h2
    have hx : Placed (LaidOut st) (.expr ((ds ++ [x]).foldl .Application e)) (c1 ++ (c2 ++ (g ++ c))) := by
      refine .mk ⟨ind, j, hj, .eApp (.app k1 k3)⟩ ?_
      have := row_cons h (row_pre g (row_one (ih1 hj)))
      simpa [nodeParts, exprParts, List.foldl_append] using this
    have := ih2 hj k1 k3 hx
    simpa using this
  | app h1 h2 ih1 ih2 =>
    intro hj
    have := ih2 hj h1 .args0 (by simpa using ih1 hj)
    simpa using this
  | eApp _ ih => exact ih
  | @binop ind j i a o b c g w d h1 h2 h3 h4 h5 h6 ih1 ih2 =>
    intro hj
    refine .mk ⟨ind, j, hj, .binop h1 h2 h3 h4 h5 h6⟩ ?_
    have := row_cons (ih1 hj) (row_pre (g ++ o ++ w) (row_one (ih2 hj)))
    simpa [nodeParts, exprParts] using this
  | @let_ ind j i i2 i3 l ls e g1 c cs g2 g3 d h1 h2 h3 h4 h5 h6 ih1 ih2 ih3 =>
    intro hj
    refine .mk ⟨ind, j, hj, .let_ h1 h2 h3 h4 h5 h6⟩ ?_
    have := row_pre (c!"let" ++ g1) (row_append (row_append (row_pre (g2 ++ c!"in" ++ g3) (row_one (ih3 hj)))
      (ih2 (Nat.zero_le _))) (ih1 (after_le (Nat.zero_le _) (Nat.le_refl _))))
    simpa [nodeParts, exprParts] using this
  | @case_ ind j i1 i2 i e b bs g1 c g2 g3 d ds h1 h2 h3 h4 h5 h6 h7 ih1 ih2 ih3 =>
    intro hj
    have hi := gap_ge h4
    refine .mk ⟨ind, j, hj, .case_ h1 h2 h3 h4 h5 h6 h7⟩ ?_
    have := row_pre (c!"case" ++ g1) (row_cons (ih1 (Nat.zero_le _)) (row_pre (g2 ++ c!"of" ++ g3)
      (row_append (ih3 (by omega)) (ih2 (after_le (by omega) (Nat.le_refl _))))))
    simpa [nodeParts, exprParts] using this
  | @if_ ind j i1 i2 i3 i4 i5 e1 e2 e3 g1 c1 g2 g3 c2 g4 g5 c3 h1 h2 h3 h4 h5 h6 h7 h8 ih1 ih2 ih3 =>
    intro hj
    have hi := gap_ge h7
    refine .mk ⟨ind, j, hj, .if_ h1 h2 h3 h4 h5 h6 h7 h8⟩ ?_
    have := row_pre (c!"if" ++ g1) (row_cons (ih1 (Nat.zero_le _)) (row_pre (g2 ++ c!"then" ++ g3)
      (row_cons (ih2 (Nat.zero_le _)) (row_pre (g4 ++ c!"else" ++ g5) (row_one (ih3 (by omega)))))))
    simpa [nodeParts, exprParts] using this
  | @lambda ind j i1 i a as e c cs g1 g2 d h1 h2 h3 h4 h5 ih1 ih2 ih3 =>
    intro hj
    have hi := gap_ge h4
    refine .mk ⟨ind, j, hj, .lambda h1 h2 h3 h4 h5⟩ ?_
    have := row_pre c!"\\" (row_cons (ih1 hj) (row_append (row_pre (g1 ++ c!"->" ++ g2) (row_one (ih3 (by omega)))) (ih2 hj)))
    simpa [nodeParts, exprParts] using this
  | largs0 => exact fun _ => .nil
  | largs h1 _ _ ih1 ih2 => exact fun hj => .cons (ih1 hj) (ih2 hj)
  | tVar h => exact fun hj => .mk ⟨_, _, hj, .tVar h⟩ .nil
  | tList0 h => exact fun hj => .mk ⟨_, _, hj, .tList0 h⟩ .nil
  | @tList ind j e es g1 g2 c cs h1 h2 h3 h4 ih1 ih2 =>
    intro hj
    refine .mk ⟨_, _, hj, .tList h1 h2 h3 h4⟩ ?_
    have := row_pre (c!"[" ++ g1) (row_post (g2 ++ c!"]") (row_cons (ih1 (Nat.zero_le _)) (ih2 (Nat.zero_le _))))
    simpa [nodeParts, exprParts] using this
  | tTuple0 => exact fun hj => .mk ⟨_, _, hj, .tTuple0⟩ .nil
  | @tTuple ind j e es w1 w2 c cs h1 h2 h3 h4 ih1 ih2 =>
    intro hj
    refine .mk ⟨_, _, hj, .tTuple h1 h2 h3 h4⟩ ?_
    have := row_pre (c!"(" ++ w1) (row_post c!")" (row_cons (ih1 (Nat.zero_le _)) (row_pre w2 (ih2 (Nat.zero_le _)))))
    simpa [nodeParts, exprParts] using this
  | tRecord h => exact fun hj => .mk ⟨_, _, hj, .tRecord h⟩ (row_post _ (row_pre _ (simpBody_place st h)))
  | @binding ind j i1 i t e c g1 g2 d h1 h2 h3 h4 ih1 ih2 =>
    intro hj
    have hi := gap_ge h3
    have := row_cons (ih1 hj) (row_pre (g1 ++ c!"=" ++ g2) (row_one (ih2 (by omega))))
    simpa [entryParts] using this
  | function h _ ih => exact ih
  | entries0 => exact fun _ => .nil
  | @entries ind j i l ls g c cs h1 h2 h3 h4 ih1 ih2 =>
    intro hj
    have := row_pre g (row_append (ih2 hj) (ih1 (after_le hj (Nat.le_refl _))))
    simpa using this
  | fargs0 => exact fun _ => .nil
  | fargs h1 _ _ ih1 ih2 => exact fun hj => .cons (ih1 hj) (ih2 hj)
  | @defn ind j i n as e m cs w g d h1 h2 h3 h4 h5 ih1 ih2 =>
    intro hj
    have hi := gap_gt h4
    have := row_pre m (row_append (row_pre (w ++ c!"=" ++ g) (row_one (ih2 (by omega)))) (ih1 hj))
    simpa using this
  | @fn _ _ d _ _ ih => cases d; exact ih
  | @fnSig ind j i n t d m w g k c1 c h1 h2 h3 h4 h5 h6 ih =>
    cases d
    intro hj
    have := row_pre (m ++ w ++ c!":" ++ g) (row_cons (ty_place st h4) (row_pre ('\n' :: sp k) (ih hj)))
    simpa [functionParts] using this
  | @branch ind j i1 i p e c g1 g2 d h1 h2 h3 h4 h5 ih1 ih2 =>
    intro hj
    have hi := gap_ge h3
    have := row_cons (ih1 (Nat.zero_le _)) (row_pre (g1 ++ c!"->" ++ g2) (row_one (ih2 (by omega))))
    simpa using this
  | branches0 => exact fun _ => .nil
  | @branches ind j i b bs g c cs h1 h2 h3 h4 ih1 ih2 =>
    intro hj
    have := row_pre g (row_append (ih2 hj) (ih1 (after_le hj (Nat.le_refl _))))
    simpa using this

/-! ### Declarations and files -/

theorem constructors_place (st : Prop) {i : Nat} {us : List Ty} {c : Str} (h : ConstructorItems i us c) :
    Row (LaidOut st) (us.map .type_) c := by
  induction h with
  | nil => exact .nil
  | cons _ _ h _ ih => exact .cons (ty_place st h) ih

theorem stmt_place {st : Prop} {x : Statement} {c : Str} (h : StmtSrc st x c) : Row (LaidOut st) (statementParts x) c := by
  cases h with
  | @typeAlias t u w1 w2 w3 g i c d h1 h2 h3 h4 h5 h6 =>
    have := row_pre (c!"type" ++ w1 ++ c!"alias" ++ w2) (row_cons (ty_place st h3)
      (row_pre (w3 ++ c!"=" ++ g) (row_one (ty_place st h6))))
    simpa [statementParts] using this
  | @type_ t ns ts us w g1 i g2 i2 c d ds h1 h2 h3 h4 h5 h6 =>
    have := row_pre (c!"type" ++ w) (row_cons (ty_place st h2)
      (row_pre (g1 ++ c!"=" ++ g2) (row_cons (ty_place st h5) (constructors_place st h6))))
    simpa [statementParts] using this
  | portType h1 h2 h3 h4 h5 => exact row_pre _ (row_one (ty_place st h5))
  | port h1 h2 h3 h4 h5 h6 => exact row_pre _ (row_one (expr_place h6 (Nat.le_refl _)))
  | function h => exact expr_place h (Nat.le_refl _)
  | _ => exact .nil

theorem stmts_place {st : Prop} {b : Bool} {xs : List Statement} {c : Str} (h : Stmts st b xs c) :
    FileRow (LaidOut st) xs c := by
  induction h with
  | last => exact .nil
  | @sep w xs c _ _ _ _ ih =>
    cases ih with
    | nil => exact .nil
    | @cons x xs a c d h1 h2 =>
      have : w ++ (a ++ c ++ d) = (w ++ a) ++ c ++ d := by simp
      rw [this]
      exact .cons h1 h2
  | @line t xs r _ _ _ ih =>
    have := FileRow.cons (x := .Comment t) (a := []) (Row.nil (P := LaidOut st) (c := c!"--" ++ t)) ih
    simpa using this
  | @stmt x c xs r h _ ih =>
    have := FileRow.cons (a := []) (stmt_place h) ih
    simpa using this

theorem file_place {st : Prop} {xs : List Statement} {s : Str} (h : FileSrc st xs s) : FileRow (LaidOut st) xs s := by
  obtain ⟨w, d, rfl, hw, h⟩ := h
  have := stmts_place h
  cases this with
  | nil => exact .nil
  | @cons x xs a c d h1 h2 =>
    have : w ++ (a ++ c ++ d) = (w ++ a) ++ c ++ d := by simp
    rw [this]
    exact .cons h1 h2

theorem fileRow_mem {P : Node → Str → Prop} {x : Statement} {xs : List Statement} {s : Str} (h : FileRow P xs s)
    (hx : x ∈ xs) : ∃ a d b, s = a ++ d ++ b ∧ Row P (statementParts x) d := by
  induction h with
  | nil => simp at hx
  | @cons y ys a c d h1 _ ih =>
    rcases List.mem_cons.1 hx with rfl | hx
    · exact ⟨a, c, d, rfl, h1⟩
    · obtain ⟨u, v, w, rfl, h⟩ := ih hx
      exact ⟨a ++ c ++ u, v, w, by simp, h⟩

end ElmParser
