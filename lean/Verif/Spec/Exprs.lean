import Verif.Spec.Types
import Verif.Model.Ast

/-! The concrete syntax of expressions: which texts are layouts of which expression tree, and
which expression trees have a text at all.  Independent of the parser.

The relation `Src st` has a flag.  With `st := False` it describes every text the parser
accepts.  With `st := True` three more conditions are imposed, and then every text of the
relation is read back as the tree it is a layout of:
* the branches of a `case` and the entries of a `let` after the first stand on new lines;
* the branches of a `case` stand to the right of anything that may follow the `case` on a new line;
* the arrow of a branch is not directly followed by a comment (`->--` is an operator). -/
namespace ElmParser.Spec

/-- White space, possibly empty. -/
def Whites (w : Str) : Prop := ∀ c ∈ w, White c
/-- Spaces, at least one. -/
def SpacesTxt (w : Str) : Prop := w ≠ [] ∧ ∀ c ∈ w, c = ' '
/-- Spaces and tabs, at least one. -/
def BlanksTxt (w : Str) : Prop := w ≠ [] ∧ ∀ c ∈ w, c = ' ' ∨ c = '\t'

/-- `c` is a spelling of the variable `ns`. -/
inductive VarText : List Name → Str → Prop
  | lo {n} : LoName n → VarText [n] n
  | up {ns} : ns ≠ [] → (∀ n ∈ ns, UpName n) → VarText ns (dotted ns)
  /-- `(+)` -/
  | op {o} : Operator o → VarText [o] (c!"(" ++ o ++ c!")")
  /-- `(,,)` -/
  | commas {n} : VarText [List.replicate (n + 1) ','] (c!"(" ++ List.replicate (n + 1) ',' ++ c!")")

/-- `.a.b.c` -/
def dots : List Name → Str
  | [] => []
  | n :: ns => '.' :: (n ++ dots ns)

/-- What may stand between two operands: an operator, or `as` in a pattern.  After a gap
an operator that starts with `--` would be a comment. -/
def InfixOp (o : Name) : Prop := o = c!"as" ∨ (Operator o ∧ ∀ t, o ≠ '-' :: '-' :: t)

/-- The name of a function as it is written: a name, or an operator in parentheses. -/
inductive FnName : Name → Str → Prop
  | lo {n} : LoName n → FnName n n
  | op {o} : Operator o → FnName o (c!"(" ++ o ++ c!")")

/-- The fields of a simplified record `{ a, b }`, with the commas before them. -/
inductive SimpFields : List (Name × Expr) → Str → Prop
  | nil : SimpFields [] []
  | cons {n w1 w2 fs cs} : LoName n → Whites w1 → Whites w2 → SimpFields fs cs →
      SimpFields ((n, .Variable [n]) :: fs) (c!"," ++ w1 ++ n ++ w2 ++ cs)

/-- A simplified record without its braces. -/
inductive SimpBody : List (Name × Expr) → Str → Prop
  | nil : SimpBody [] []
  | cons {n w1 w2 fs cs} : LoName n → Whites w1 → Whites w2 → SimpFields fs cs →
      SimpBody ((n, .Variable [n]) :: fs) (w1 ++ n ++ w2 ++ cs)

/-- Syntactic categories of expressions. -/
inductive Cat where
  /-- a term closed by a bracket or quote -/
  | closed (e : Expr)
  /-- a term: a name, a literal or something in brackets -/
  | term (e : Expr)
  /-- arguments, each with the gap before it -/
  | args (es : List Expr)
  /-- an application, or a single term -/
  | app (e : Expr)
  | expr (e : Expr)
  /-- further elements of a list, each with its comma -/
  | items (es : List Expr)
  /-- further components of a tuple, each with its comma -/
  | comps (es : List Expr)
  /-- a field of a record -/
  | field (f : Name × Expr)
  /-- further fields of a record, each with its comma -/
  | fields (fs : List (Name × Expr))
  /-- a field of a record update -/
  | upd (f : Name × Expr)
  /-- further fields of a record update, each with its comma -/
  | upds (fs : List (Name × Expr))
  /-- further arguments of a lambda, each with the blanks before it -/
  | largs (es : List Expr)
  /-- the left side of a binding -/
  | target (e : Expr)
  | entry (l : LetEntry)
  /-- further entries of a `let`, each with the gap before it -/
  | entries (ls : List LetEntry)
  /-- arguments of a function definition, each with the spaces before it -/
  | fargs (es : List Expr)
  | defn (d : FunctionDefinition)
  | fn (f : Function)
  | branch (b : Expr × Expr)
  /-- further branches of a `case`, each with the gap before it -/
  | branches (bs : List (Expr × Expr))

/-- What follows an element of a block: the rest of the block, or what follows the block. -/
def after {α : Type} : List α → Nat → Nat → Nat
  | [], j, _ => j
  | _ :: _, _, k => k

/-- `SrcAt st ind j cat c`: the text `c` is a layout of `cat` at indentation `ind`, in a place where what
follows is something that ends every expression, such as a closing bracket (`j = 0`), or that or a new line
that starts left of column `j` (`j > 0`). -/
inductive SrcAt (st : Prop) : Nat → Nat → Cat → Str → Prop
  -- terms
  | var {ind j ns c} : VarText ns c → SrcAt st ind j (.term (.Variable ns)) c
  | access {ind j ns c n ms} : VarText ns c → (∀ m ∈ n :: ms, LoName m) →
      SrcAt st ind j (.term (.Access (.Variable ns) (n :: ms))) (c ++ dots (n :: ms))
  | accessFn {ind j n} : LoName n → SrcAt st ind j (.term (.AccessFunction n)) (c!"." ++ n)
  | str0 {ind j} : SrcAt st ind j (.term (.String [])) c!"\"\""
  | int {ind j n} : IntText n → SrcAt st ind j (.term (.Integer n)) n
  | float {ind j n} : FloatText n → SrcAt st ind j (.term (.Float n)) n
  | closed {ind j e c} : SrcAt st ind j (.closed e) c → SrcAt st ind j (.term e) c
  | str1 {ind j s} : StringText s → s ≠ [] → SrcAt st ind j (.closed (.String s)) (c!"\"" ++ s ++ c!"\"")
  | str3 {ind j s} : '"' ∉ s → SrcAt st ind j (.closed (.String s)) (c!"\"\"\"" ++ s ++ c!"\"\"\"")
  | char {ind j w x} : CharText w x → SrcAt st ind j (.closed (.Character x)) (c!"'" ++ w ++ c!"'")
  | parens {ind j e c} : SrcAt st ind 0 (.expr e) c → SrcAt st ind j (.closed e) (c!"(" ++ c ++ c!")")
  | list0 {ind j g} : OptGapTxt ind .GTE g → SrcAt st ind j (.closed (.List [])) (c!"[" ++ g ++ c!"]")
  | list {ind j e es g1 g2 c cs} : OptGapTxt ind .GTE g1 → SrcAt st ind 0 (.expr e) c →
      SrcAt st ind 0 (.items es) cs → OptGapTxt ind .GTE g2 →
      SrcAt st ind j (.closed (.List (e :: es))) (c!"[" ++ g1 ++ c ++ cs ++ g2 ++ c!"]")
  | tuple0 {ind j} : SrcAt st ind j (.closed (.Tuple [])) c!"()"
  /-- `( e )` with white space inside -/
  | tuple1 {ind j e w1 w2 c} : Whites w1 → Whites w2 → w1 ++ w2 ≠ [] → SrcAt st ind 0 (.expr e) c →
      SrcAt st ind j (.closed (.Tuple [e])) (c!"(" ++ w1 ++ c ++ w2 ++ c!")")
  | tuple {ind j e es w1 w2 c cs} : Whites w1 → Whites w2 → SrcAt st ind 0 (.expr e) c →
      SrcAt st ind 0 (.comps es) cs → es ≠ [] →
      SrcAt st ind j (.closed (.Tuple (e :: es))) (c!"(" ++ w1 ++ c ++ w2 ++ cs ++ c!")")
  | record0 {ind j g} : OptGapTxt ind .GTE g → SrcAt st ind j (.closed (.Record [])) (c!"{" ++ g ++ c!"}")
  | record {ind j f fs g1 g2 c cs} : OptGapTxt ind .GTE g1 → SrcAt st ind 0 (.field f) c →
      SrcAt st ind 0 (.fields fs) cs → OptGapTxt ind .GTE g2 →
      SrcAt st ind j (.closed (.Record (f :: fs))) (c!"{" ++ g1 ++ c ++ cs ++ g2 ++ c!"}")
  /-- `{ a, b }` -/
  | simp {ind j f fs c} : SimpBody (f :: fs) c → SrcAt st ind j (.closed (.Record (f :: fs))) (c!"{" ++ c ++ c!"}")
  /-- `{ r | a = 1, b = 2 }`; there must be a gap before the brace -/
  | update {ind j n f fs g1 g2 w g3 i c cs} : OptGapTxt ind .GTE g1 → LoName n → OptGapTxt ind .GTE g2 →
      Whites w → SrcAt st ind 0 (.upd f) c → SrcAt st ind 0 (.upds fs) cs → GapTxt ind .GTE i g3 →
      SrcAt st ind j (.closed (.RecordUpdate n (f :: fs)))
        (c!"{" ++ g1 ++ n ++ g2 ++ c!"|" ++ w ++ c ++ cs ++ g3 ++ c!"}")
  /-- `{ r | -- comment⏎ }`; only a comment can make the gap before the brace -/
  | update0 {ind j n g1 g2 w g3 i} : OptGapTxt ind .GTE g1 → LoName n → OptGapTxt ind .GTE g2 →
      Whites w → GapTxt ind .GTE i ('-' :: g3) →
      SrcAt st ind j (.closed (.RecordUpdate n []))
        (c!"{" ++ g1 ++ n ++ g2 ++ c!"|" ++ w ++ ('-' :: g3) ++ c!"}")
  -- parts of terms
  | items0 {ind j} : SrcAt st ind j (.items []) []
  | items {ind j e es g1 g2 c cs} : OptGapTxt ind .GTE g1 → OptGapTxt ind .GTE g2 →
      SrcAt st ind 0 (.expr e) c → SrcAt st ind 0 (.items es) cs →
      SrcAt st ind j (.items (e :: es)) (g1 ++ c!"," ++ g2 ++ c ++ cs)
  | comps0 {ind j} : SrcAt st ind j (.comps []) []
  | comps {ind j e es w1 w2 c cs} : Whites w1 → Whites w2 → SrcAt st ind 0 (.expr e) c →
      SrcAt st ind 0 (.comps es) cs → SrcAt st ind j (.comps (e :: es)) (c!"," ++ w1 ++ c ++ w2 ++ cs)
  | field {ind j n e g1 g2 c} : LoName n → OptGapTxt ind .GTE g1 → OptGapTxt ind .GTE g2 →
      SrcAt st ind 0 (.expr e) c → SrcAt st ind j (.field (n, e)) (n ++ g1 ++ c!"=" ++ g2 ++ c)
  | fields0 {ind j} : SrcAt st ind j (.fields []) []
  | fields {ind j f fs g1 g2 c cs} : OptGapTxt ind .GTE g1 → OptGapTxt ind .GTE g2 →
      SrcAt st ind 0 (.field f) c → SrcAt st ind 0 (.fields fs) cs →
      SrcAt st ind j (.fields (f :: fs)) (g1 ++ c!"," ++ g2 ++ c ++ cs)
  | upd {ind j n e w1 w2 c} : LoName n → Whites w1 → Whites w2 →
      SrcAt st ind 0 (.expr e) c → SrcAt st ind j (.upd (n, e)) (n ++ w1 ++ c!"=" ++ w2 ++ c)
  | upds0 {ind j} : SrcAt st ind j (.upds []) []
  | upds {ind j f fs g1 g2 c cs} : OptGapTxt ind .GTE g1 → OptGapTxt ind .GTE g2 →
      SrcAt st ind 0 (.upd f) c → SrcAt st ind 0 (.upds fs) cs →
      SrcAt st ind j (.upds (f :: fs)) (g1 ++ c!"," ++ g2 ++ c ++ cs)
  -- applications
  | args0 {ind j} : SrcAt st ind j (.args []) []
  | args {ind j i e es g c cs} : GapTxt ind .GT i g → SrcAt st ind j (.term e) c → SrcAt st ind j (.args es) cs →
      SrcAt st ind j (.args (e :: es)) (g ++ c ++ cs)
  | app {ind j e es c cs} : SrcAt st ind j (.term e) c → SrcAt st ind j (.args es) cs →
      SrcAt st ind j (.app (es.foldl .Application e)) (c ++ cs)
  -- expressions
  | eApp {ind j e c} : SrcAt st ind j (.app e) c → SrcAt st ind j (.expr e) c
  | binop {ind j i a o b c g w d} : SrcAt st ind j (.app a) c → GapTxt ind .GTE i g → InfixOp o →
      Whites w → w ≠ [] → SrcAt st ind j (.expr b) d →
      SrcAt st ind j (.expr (.BinOp (.Variable [o]) a b)) (c ++ g ++ o ++ w ++ d)
  | let_ {ind j i i2 i3 l ls e g1 c cs g2 g3 d} : GapTxt ind .GTE i g1 → SrcAt st i (after ls 0 (i + 1)) (.entry l) c →
      SrcAt st i 0 (.entries ls) cs → GapTxt ind .GTE i2 g2 → GapTxt ind .GTE i3 g3 → SrcAt st ind j (.expr e) d →
      SrcAt st ind j (.expr (.Let (l :: ls) e))
        (c!"let" ++ g1 ++ c ++ cs ++ g2 ++ c!"in" ++ g3 ++ d)
  | case_ {ind j i1 i2 i e b bs g1 c g2 g3 d ds} : GapTxt ind .GTE i1 g1 → SrcAt st ind 0 (.expr e) c →
      GapTxt ind .GTE i2 g2 → GapTxt ind .GTE i g3 → (st → j ≤ i) → SrcAt st i (after bs j (i + 1)) (.branch b) d →
      SrcAt st i j (.branches bs) ds →
      SrcAt st ind j (.expr (.Case e (b :: bs)))
        (c!"case" ++ g1 ++ c ++ g2 ++ c!"of" ++ g3 ++ d ++ ds)
  | if_ {ind j i1 i2 i3 i4 i5 e1 e2 e3 g1 c1 g2 g3 c2 g4 g5 c3} : GapTxt ind .GTE i1 g1 →
      SrcAt st ind 0 (.expr e1) c1 → GapTxt ind .GTE i2 g2 → GapTxt ind .GTE i3 g3 → SrcAt st i3 0 (.expr e2) c2 →
      GapTxt ind .GTE i4 g4 → GapTxt ind .GTE i5 g5 → SrcAt st i5 j (.expr e3) c3 →
      SrcAt st ind j (.expr (.If e1 e2 e3))
        (c!"if" ++ g1 ++ c1 ++ g2 ++ c!"then" ++ g3 ++ c2 ++ g4 ++ c!"else" ++ g5 ++ c3)
  | lambda {ind j i1 i a as e c cs g1 g2 d} : SrcAt st ind j (.term a) c → SrcAt st ind j (.largs as) cs →
      GapTxt ind .GTE i1 g1 → GapTxt ind .GTE i g2 → SrcAt st i j (.expr e) d →
      SrcAt st ind j (.expr (.Lambda (a :: as) e)) (c!"\\" ++ c ++ cs ++ g1 ++ c!"->" ++ g2 ++ d)
  | largs0 {ind j} : SrcAt st ind j (.largs []) []
  | largs {ind j e es w c cs} : BlanksTxt w → SrcAt st ind j (.term e) c → SrcAt st ind j (.largs es) cs →
      SrcAt st ind j (.largs (e :: es)) (w ++ c ++ cs)
  -- let entries
  | tVar {ind j ns c} : VarText ns c → SrcAt st ind j (.target (.Variable ns)) c
  | tList0 {ind j g} : OptGapTxt ind .GTE g → SrcAt st ind j (.target (.List [])) (c!"[" ++ g ++ c!"]")
  | tList {ind j e es g1 g2 c cs} : OptGapTxt ind .GTE g1 → SrcAt st ind 0 (.expr e) c →
      SrcAt st ind 0 (.items es) cs → OptGapTxt ind .GTE g2 →
      SrcAt st ind j (.target (.List (e :: es))) (c!"[" ++ g1 ++ c ++ cs ++ g2 ++ c!"]")
  | tTuple0 {ind j} : SrcAt st ind j (.target (.Tuple [])) c!"()"
  /-- here `(a)` is a tuple -/
  | tTuple {ind j e es w1 w2 c cs} : Whites w1 → Whites w2 → SrcAt st ind 0 (.expr e) c →
      SrcAt st ind 0 (.comps es) cs →
      SrcAt st ind j (.target (.Tuple (e :: es))) (c!"(" ++ w1 ++ c ++ w2 ++ cs ++ c!")")
  | tRecord {ind j fs c} : SimpBody fs c → SrcAt st ind j (.target (.Record fs)) (c!"{" ++ c ++ c!"}")
  | binding {ind j i1 i t e c g1 g2 d} : SrcAt st ind j (.target t) c → GapTxt ind .GTE i1 g1 →
      GapTxt ind .GTE i g2 → SrcAt st i j (.expr e) d →
      SrcAt st ind j (.entry (.LetBinding t e)) (c ++ g1 ++ c!"=" ++ g2 ++ d)
  /-- without signature and arguments it would be a binding -/
  | function {ind j sg n as e c} : sg ≠ none ∨ as ≠ [] → SrcAt st ind j (.fn (.mk sg (.mk n as e))) c →
      SrcAt st ind j (.entry (.LetFunction (.mk sg (.mk n as e)))) c
  | entries0 {ind j} : SrcAt st ind j (.entries []) []
  | entries {ind j i l ls g c cs} : GapTxt ind .EQ i g → (st → '\n' ∈ g) → SrcAt st ind (after ls j (ind + 1)) (.entry l) c →
      SrcAt st ind j (.entries ls) cs → SrcAt st ind j (.entries (l :: ls)) (g ++ c ++ cs)
  -- functions
  | fargs0 {ind j} : SrcAt st ind j (.fargs []) []
  | fargs {ind j e es w c cs} : SpacesTxt w → SrcAt st ind j (.term e) c → SrcAt st ind j (.fargs es) cs →
      SrcAt st ind j (.fargs (e :: es)) (w ++ c ++ cs)
  | defn {ind j i n as e m cs w g d} : FnName n m → SrcAt st ind j (.fargs as) cs → SpacesTxt w →
      GapTxt ind .GT i g → SrcAt st i j (.expr e) d →
      SrcAt st ind j (.defn (.mk n as e)) (m ++ cs ++ w ++ c!"=" ++ g ++ d)
  | fn {ind j d c} : SrcAt st ind j (.defn d) c → SrcAt st ind j (.fn (.mk none d)) c
  | fnSig {ind j i n t d m w g k c1 c} : FnName n m → SpacesTxt w → GapTxt ind .GT i g →
      TySrc i (.ann t) c1 → k % 4294967296 = ind → SrcAt st ind j (.defn d) c →
      SrcAt st ind j (.fn (.mk (some ⟨n, t⟩) d)) (m ++ w ++ c!":" ++ g ++ c1 ++ '\n' :: (sp k ++ c))
  -- case branches
  | branch {ind j i1 i p e c g1 g2 d} : SrcAt st ind 0 (.expr p) c → GapTxt ind .GTE i1 g1 →
      GapTxt ind .GTE i g2 → (st → ∀ t, g2 ≠ '-' :: t) → SrcAt st i j (.expr e) d →
      SrcAt st ind j (.branch (p, e)) (c ++ g1 ++ c!"->" ++ g2 ++ d)
  | branches0 {ind j} : SrcAt st ind j (.branches []) []
  | branches {ind j i b bs g c cs} : GapTxt ind .EQ i g → (st → '\n' ∈ g) → SrcAt st ind (after bs j (ind + 1)) (.branch b) c →
      SrcAt st ind j (.branches bs) cs → SrcAt st ind j (.branches (b :: bs)) (g ++ c ++ cs)

/-- `Src st ind cat c`: the text `c` is a layout of `cat` at indentation `ind`, wherever it stands. -/
abbrev Src (st : Prop) (ind : Nat) (k : Cat) (c : Str) : Prop := SrcAt st ind (ind + 1) k c

/-! ### What may follow an expression -/

/-- A character a term can start with. -/
def TermHead (c : Char) : Prop :=
  Lower c ∨ Upper c ∨ Digit c ∨ c ∈ ['_', '(', '.', '"', '+', '-', '\'', '[', '{']
instance : DecidablePred TermHead := fun _ => inferInstanceAs (Decidable (_ ∨ _))

/-- Nothing continues the last token. -/
def TermStop (r : Str) : Prop := Next (fun c => ¬ IdentChar c ∧ c ≠ '.' ∧ c ≠ '"') r

/-- An operator (or `as`) followed by white space. -/
def OpStart (r : Str) : Prop := ∃ o w t, r = o ++ w :: t ∧ White w ∧ (o = c!"as" ∨ Operator o)

/-- Something that ends every expression: a closing bracket, a comma, the end of the text or another
character no expression starts with; an arrow; or `then`, `else`, `of`, `in`. -/
def Closer (r : Str) : Prop :=
  Next (fun c => ¬ TermHead c ∧ ¬ OpChar c) r ∨
  (∃ t, r = '-' :: '>' :: t ∧ Next (fun c => ¬ OpChar c) t) ∨
  (∃ k t, k ∈ [c!"then", c!"else", c!"of", c!"in"] ∧ r = k ++ t ∧ Next (fun c => ¬ IdentChar c) t)

/-- The text `r` ends an expression: the last token is complete; and there is no gap, or a closer after it, or
the next token stands on a new line left of column `j`, and is not an operator if it stands directly left of it. -/
def StopAt (j : Nat) (r : Str) : Prop :=
  TermStop r ∧ (NoGap r ∨ ∃ ls last r', Gap r ls last r' ∧ (Closer r' ∨ (ls ≠ [] ∧
    (column last % 4294967296 + 1 < j ∨ (column last % 4294967296 + 1 = j ∧ ¬ OpStart r')))))

/-- The text `r` ends an expression read at indentation `ind`: the last token is complete; and there
is no gap, or a closer after it, or the next token stands on a new line left of `ind`, or at
`ind` and is not an operator. -/
def Stop (ind : Nat) (r : Str) : Prop :=
  TermStop r ∧ (NoGap r ∨ ∃ ls last r', Gap r ls last r' ∧ (Closer r' ∨ (ls ≠ [] ∧
    (column last % 4294967296 < ind ∨ (column last % 4294967296 = ind ∧ ¬ OpStart r')))))

/-! ### Well-formed trees -/

/-- The names a variable can have. -/
def WFVar (ns : List Name) : Prop :=
  (∃ n, ns = [n] ∧ (LoName n ∨ Operator n ∨ ∃ k, n = List.replicate (k + 1) ',')) ∨
  (ns ≠ [] ∧ ∀ n ∈ ns, UpName n)

mutual
/-- The expression trees that can be written. -/
inductive WFExpr : Expr → Prop
  | char {c} : WFExpr (.Character c)
  | string {s} : StringText s ∨ '"' ∉ s → WFExpr (.String s)
  | int {n} : IntText n → WFExpr (.Integer n)
  | float {n} : FloatText n → WFExpr (.Float n)
  | var {ns} : WFVar ns → WFExpr (.Variable ns)
  | list {es} : (∀ e ∈ es, WFExpr e) → WFExpr (.List es)
  | tuple {es} : (∀ e ∈ es, WFExpr e) → WFExpr (.Tuple es)
  | access {ns ms} : WFVar ns → ms ≠ [] → (∀ m ∈ ms, LoName m) → WFExpr (.Access (.Variable ns) ms)
  | accessFn {n} : LoName n → WFExpr (.AccessFunction n)
  | record {fs} : (∀ f ∈ fs, LoName f.1) → (∀ f ∈ fs, WFExpr f.2) → WFExpr (.Record fs)
  | update {n fs} : LoName n → (∀ f ∈ fs, LoName f.1) → (∀ f ∈ fs, WFExpr f.2) →
      WFExpr (.RecordUpdate n fs)
  | if_ {a b c} : WFExpr a → WFExpr b → WFExpr c → WFExpr (.If a b c)
  | let_ {ls e} : ls ≠ [] → (∀ l ∈ ls, WFEntry l) → WFExpr e → WFExpr (.Let ls e)
  | case_ {e bs} : WFExpr e → bs ≠ [] → (∀ b ∈ bs, WFExpr b.1) → (∀ b ∈ bs, WFExpr b.2) →
      WFExpr (.Case e bs)
  | lambda {as e} : as ≠ [] → (∀ a ∈ as, WFExpr a) → WFExpr e → WFExpr (.Lambda as e)
  | app {f x} : WFExpr f → WFExpr x → WFExpr (.Application f x)
  | binop {o a b} : InfixOp o → WFExpr a → WFExpr b → WFExpr (.BinOp (.Variable [o]) a b)

/-- The left sides of bindings. -/
inductive WFTarget : Expr → Prop
  | var {ns} : WFVar ns → WFTarget (.Variable ns)
  | list {es} : (∀ e ∈ es, WFExpr e) → WFTarget (.List es)
  | tuple {es} : (∀ e ∈ es, WFExpr e) → WFTarget (.Tuple es)
  | record {ns : List Name} : (∀ n ∈ ns, LoName n) →
      WFTarget (.Record (ns.map fun n => (n, .Variable [n])))

/-- Entries of a `let`. -/
inductive WFEntry : LetEntry → Prop
  | binding {t e} : WFTarget t → WFExpr e → WFEntry (.LetBinding t e)
  | function {sg n as e} : sg ≠ none ∨ as ≠ [] → WFFunction (.mk sg (.mk n as e)) →
      WFEntry (.LetFunction (.mk sg (.mk n as e)))

/-- Functions. -/
inductive WFFunction : Function → Prop
  | mk {sg n as e} : (∀ g, sg = some g → (LoName g.name ∨ Operator g.name) ∧ WFTy g.type_) →
      (LoName n ∨ Operator n) → (∀ a ∈ as, WFExpr a) → WFExpr e → WFFunction (.mk sg (.mk n as e))
end

end ElmParser.Spec
