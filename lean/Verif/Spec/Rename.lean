import Verif.Spec.Statements

/-! Renaming: texts that differ in their names and numbers only, and trees that do. -/
namespace ElmParser.Spec.Rename

/-- A word: letters, digits and underscores. -/
def IsWord (w : Str) : Prop := w ≠ [] ∧ ∀ c ∈ w, IdentChar c

/-- The text does not go on with a word. -/
abbrev Ends (s : Str) : Prop := Next (fun c => ¬ IdentChar c) s

/-- Words that declarations begin with although they are not reserved. -/
def openers : List Str := [c!"effect", c!"infix", c!"infixl", c!"infixr"]

/-- A lower-case name whose characters can all occur in a type variable. -/
def Plain (w : Str) : Prop := Word Lower TyVarChar w ∧ w ∉ keywords ∧ w ∉ openers
/-- A lower-case name with a capital letter or a zero; it is not a type variable. -/
def Camel (w : Str) : Prop := Word Lower IdentChar w ∧ ∃ c ∈ w, ¬ TyVarChar c

/-- Numbers, both small enough for the priority of an operator or both too large. -/
def Numbers (w w' : Str) : Prop := Digits w ∧ Digits w' ∧ (decimal w ≤ i64Max ↔ decimal w' ≤ i64Max)

/-- `W` replaces names by names of the same kind and numbers by numbers: other words stay as they are. -/
def Renaming (W : Str → Str → Prop) : Prop :=
  ∀ w w', W w w' → w = w' ∨ (Plain w ∧ Plain w') ∨ (Camel w ∧ Camel w') ∨ (UpName w ∧ UpName w') ∨ Numbers w w'

/-- `Text W n s t`: the text `t` is `s` with every word replaced according to `W`; all other characters are the same.
Character literals are left alone.  After any other `'` words that begin within five characters are not replaced, which
must agree with `W`; `n` counts down how many characters are left of this. -/
inductive Text (W : Str → Str → Prop) : Nat → Str → Str → Prop
  | nil {n} : Text W n [] []
  | other {n c s t} : ¬ IdentChar c → c ≠ '\'' → Text W (n - 1) s t → Text W n (c :: s) (c :: t)
  | word {w w' s t} : IsWord w → IsWord w' → Ends s → Ends t → W w w' → Text W 0 s t → Text W 0 (w ++ s) (w' ++ t)
  | kept {n w s t} : IsWord w → Ends s → Ends t → W w w → Text W (n - w.length) s t → Text W n (w ++ s) (w ++ t)
  | quote {n s t} : Text W 5 s t → Text W n ('\'' :: s) ('\'' :: t)
  | literal {c s t} : c ≠ '"' → c ≠ '\n' → Text W 0 s t →
      Text W 0 ('\'' :: c :: '\'' :: s) ('\'' :: c :: '\'' :: t)
  | hexadecimal {a b s t} : IdentChar a → IdentChar b → Text W 0 s t →
      Text W 0 ('\'' :: '\\' :: 'x' :: a :: b :: '\'' :: s) ('\'' :: '\\' :: 'x' :: a :: b :: '\'' :: t)

/-- A name of the tree: if it is a word then it is replaced, if it is an operator then it is the same. -/
def NameRel (W : Str → Str → Prop) (n n' : Name) : Prop := (IsWord n ∧ IsWord n' ∧ W n n') ∨ (¬ IsWord n ∧ n = n')

/-- Lists of the same length with related elements. -/
inductive Each {α β : Type} (R : α → β → Prop) : List α → List β → Prop
  | nil : Each R [] []
  | cons {a b as bs} : R a b → Each R as bs → Each R (a :: as) (b :: bs)
/-- Both are absent, or both are present and related. -/
inductive Both {α β : Type} (R : α → β → Prop) : Option α → Option β → Prop
  | none : Both R none none
  | some {a b} : R a b → Both R (some a) (some b)
/-- Pairs with related components. -/
inductive Pair {α β γ δ : Type} (R : α → β → Prop) (Q : γ → δ → Prop) : α × γ → β × δ → Prop
  | mk {a b c d} : R a b → Q c d → Pair R Q (a, c) (b, d)

/-- The types differ in their names only. -/
inductive TyRel (W : Str → Str → Prop) : Ty → Ty → Prop
  | con {n n' ts ts'} : Each (NameRel W) n n' → Each (TyRel W) ts ts' →
      TyRel W (.TypeConstructor n ts) (.TypeConstructor n' ts')
  | var {n n'} : NameRel W n n' → TyRel W (.TypeVariable n) (.TypeVariable n')
  | ext {b b' fs fs'} : TyRel W b b' → Each (Pair (NameRel W) (TyRel W)) fs fs' →
      TyRel W (.TypeRecordConstructor b fs) (.TypeRecordConstructor b' fs')
  | record {fs fs'} : Each (Pair (NameRel W) (TyRel W)) fs fs' → TyRel W (.TypeRecord fs) (.TypeRecord fs')
  | tuple {ts ts'} : Each (TyRel W) ts ts' → TyRel W (.TypeTuple ts) (.TypeTuple ts')
  | arrow {a a' b b'} : TyRel W a a' → TyRel W b b' → TyRel W (.TypeApplication a b) (.TypeApplication a' b')

/-- The signatures differ in their names only. -/
inductive SigRel (W : Str → Str → Prop) : FunctionSignature → FunctionSignature → Prop
  | mk {n n' t t'} : NameRel W n n' → TyRel W t t' → SigRel W ⟨n, t⟩ ⟨n', t'⟩

mutual
/-- The expressions differ in their names and numbers, and in words inside string literals, only. -/
inductive ExprRel (W : Str → Str → Prop) : Expr → Expr → Prop
  | character {c} : ExprRel W (.Character c) (.Character c)
  | string {s t} : Text W 0 s t → ExprRel W (.String s) (.String t)
  | integer {s d d'} : Sign s → Digits d → Digits d' → W d d' → ExprRel W (.Integer (s ++ d)) (.Integer (s ++ d'))
  | float {s d d' e e'} : Sign s → Digits d → Digits d' → W d d' → Digits e → Digits e' → W e e' →
      ExprRel W (.Float (s ++ d ++ c!"." ++ e)) (.Float (s ++ d' ++ c!"." ++ e'))
  | var {n n'} : Each (NameRel W) n n' → ExprRel W (.Variable n) (.Variable n')
  | list {es es'} : Each (ExprRel W) es es' → ExprRel W (.List es) (.List es')
  | tuple {es es'} : Each (ExprRel W) es es' → ExprRel W (.Tuple es) (.Tuple es')
  | access {e e' n n'} : ExprRel W e e' → Each (NameRel W) n n' → ExprRel W (.Access e n) (.Access e' n')
  | accessor {n n'} : NameRel W n n' → ExprRel W (.AccessFunction n) (.AccessFunction n')
  | record {fs fs'} : Each (Pair (NameRel W) (ExprRel W)) fs fs' → ExprRel W (.Record fs) (.Record fs')
  | update {n n' fs fs'} : NameRel W n n' → Each (Pair (NameRel W) (ExprRel W)) fs fs' →
      ExprRel W (.RecordUpdate n fs) (.RecordUpdate n' fs')
  | cond {a a' b b' c c'} : ExprRel W a a' → ExprRel W b b' → ExprRel W c c' → ExprRel W (.If a b c) (.If a' b' c')
  | let_ {ls ls' e e'} : Each (EntryRel W) ls ls' → ExprRel W e e' → ExprRel W (.Let ls e) (.Let ls' e')
  | case {e e' bs bs'} : ExprRel W e e' → Each (Pair (ExprRel W) (ExprRel W)) bs bs' →
      ExprRel W (.Case e bs) (.Case e' bs')
  | lambda {as as' e e'} : Each (ExprRel W) as as' → ExprRel W e e' → ExprRel W (.Lambda as e) (.Lambda as' e')
  | app {a a' b b'} : ExprRel W a a' → ExprRel W b b' → ExprRel W (.Application a b) (.Application a' b')
  | binop {o o' a a' b b'} : ExprRel W o o' → ExprRel W a a' → ExprRel W b b' →
      ExprRel W (.BinOp o a b) (.BinOp o' a' b')
@[inherit_doc ExprRel]
inductive DefRel (W : Str → Str → Prop) : FunctionDefinition → FunctionDefinition → Prop
  | mk {n n' as as' e e'} : NameRel W n n' → Each (ExprRel W) as as' → ExprRel W e e' →
      DefRel W (.mk n as e) (.mk n' as' e')
@[inherit_doc ExprRel]
inductive FunRel (W : Str → Str → Prop) : Function → Function → Prop
  | mk {g g' d d'} : Both (SigRel W) g g' → DefRel W d d' → FunRel W (.mk g d) (.mk g' d')
@[inherit_doc ExprRel]
inductive EntryRel (W : Str → Str → Prop) : LetEntry → LetEntry → Prop
  | fn {f f'} : FunRel W f f' → EntryRel W (.LetFunction f) (.LetFunction f')
  | bind {a a' b b'} : ExprRel W a a' → ExprRel W b b' → EntryRel W (.LetBinding a b) (.LetBinding a' b')
end

/-- The lists of exported names differ in their names only. -/
inductive ExportRel (W : Str → Str → Prop) : ExportSet → ExportSet → Prop
  | all : ExportRel W .AllExport .AllExport
  | subset {xs xs'} : Each (ExportRel W) xs xs' → ExportRel W (.SubsetExport xs) (.SubsetExport xs')
  | fn {n n'} : NameRel W n n' → ExportRel W (.FunctionExport n) (.FunctionExport n')
  | ty {n n' o o'} : NameRel W n n' → Both (ExportRel W) o o' → ExportRel W (.TypeExport n o) (.TypeExport n' o')

/-- The statements differ in their names and numbers, and in words inside string literals and comments, only. -/
inductive StmtRel (W : Str → Str → Prop) : Statement → Statement → Prop
  | module {n n' x x'} : Each (NameRel W) n n' → ExportRel W x x' →
      StmtRel W (.ModuleDeclaration n x) (.ModuleDeclaration n' x')
  | portModule {n n' x x'} : Each (NameRel W) n n' → ExportRel W x x' →
      StmtRel W (.PortModuleDeclaration n x) (.PortModuleDeclaration n' x')
  | effectModule {n n' fs fs' x x'} : Each (NameRel W) n n' → Each (Pair (NameRel W) (NameRel W)) fs fs' →
      ExportRel W x x' → StmtRel W (.EffectModuleDeclaration n fs x) (.EffectModuleDeclaration n' fs' x')
  | imports {n n' o o' x x'} : Each (NameRel W) n n' → Both (NameRel W) o o' → Both (ExportRel W) x x' →
      StmtRel W (.ImportStatement n o x) (.ImportStatement n' o' x')
  | typeAlias {a a' b b'} : TyRel W a a' → TyRel W b b' →
      StmtRel W (.TypeAliasDeclaration a b) (.TypeAliasDeclaration a' b')
  | type {a a' ts ts'} : TyRel W a a' → Each (TyRel W) ts ts' → StmtRel W (.TypeDeclaration a ts) (.TypeDeclaration a' ts')
  | portType {n n' t t'} : NameRel W n n' → TyRel W t t' →
      StmtRel W (.PortTypeDeclaration n t) (.PortTypeDeclaration n' t')
  | port {n n' as as' e e'} : NameRel W n n' → Each (NameRel W) as as' → ExprRel W e e' →
      StmtRel W (.PortDeclaration n as e) (.PortDeclaration n' as' e')
  | fn {f f'} : FunRel W f f' → StmtRel W (.Function f) (.Function f')
  | infix_ {a d d' n n'} : Digits d → Digits d' → W d d' → NameRel W n n' →
      StmtRel W (.InfixDeclaration a (decimal d) n) (.InfixDeclaration a (decimal d') n')
  | comment {s t} : Text W 0 s t → StmtRel W (.Comment s) (.Comment t)

/-! ### Renaming by a function -/

/-- `ρ` replaces names by names of the same kind and numbers by numbers; leading zeros do not matter. -/
def Kinds (ρ : Str → Str) : Prop :=
  (∀ w, IsWord w → w = ρ w ∨ (Plain w ∧ Plain (ρ w)) ∨ (Camel w ∧ Camel (ρ w)) ∨ (UpName w ∧ UpName (ρ w)) ∨
    Numbers w (ρ w)) ∧
  ∀ v w, Digits v → Digits w → decimal v = decimal w → decimal (ρ v) = decimal (ρ w)
/-- Replacement by `ρ` as a relation. -/
def By (ρ : Str → Str) (w w' : Str) : Prop := IsWord w ∧ w' = ρ w

/-- How many characters after a `'` belong to the same character literal. -/
def literalLength (s : Str) : Nat :=
  if s[1]? = some '\'' ∧ s[0]? ≠ some '"' ∧ s[0]? ≠ some '\n' then 2
  else if s[0]? = some '\\' ∧ s[1]? = some 'x' ∧ (∃ c ∈ s[2]?, IdentChar c) ∧ (∃ c ∈ s[3]?, IdentChar c) ∧
    s[4]? = some '\'' then 5
  else 0

/-- Replaces the words outside character literals; the first argument bounds the number of steps. -/
def renameN (ρ : Str → Str) : Nat → Str → Str
  | 0, s => s
  | _ + 1, [] => []
  | n + 1, c :: s =>
    if IdentChar c then ρ (c :: s.takeWhile fun c => decide (IdentChar c)) ++
      renameN ρ n (s.dropWhile fun c => decide (IdentChar c))
    else if c = '\'' then c :: s.take (literalLength s) ++ renameN ρ n (s.drop (literalLength s))
    else c :: renameN ρ n s
/-- The text with all words replaced, but for those in character literals. -/
def renameText (ρ : Str → Str) (s : Str) : Str := renameN ρ s.length s

instance (w : Str) : Decidable (IsWord w) := inferInstanceAs (Decidable (_ ∧ _))
instance (w : Str) : Decidable (Digits w) := inferInstanceAs (Decidable (_ ∧ _))
/-- A name of the tree replaced; operators are not. -/
def renameName (ρ : Str → Str) (n : Name) : Name := if IsWord n then ρ n else n

mutual
/-- The type with its names replaced. -/
def renameTy (ρ : Str → Str) : Ty → Ty
  | .TypeConstructor n ts => .TypeConstructor (n.map (renameName ρ)) (renameTys ρ ts)
  | .TypeVariable n => .TypeVariable (renameName ρ n)
  | .TypeRecordConstructor b fs => .TypeRecordConstructor (renameTy ρ b) (renameTyFields ρ fs)
  | .TypeRecord fs => .TypeRecord (renameTyFields ρ fs)
  | .TypeTuple ts => .TypeTuple (renameTys ρ ts)
  | .TypeApplication a b => .TypeApplication (renameTy ρ a) (renameTy ρ b)
@[inherit_doc renameTy]
def renameTys (ρ : Str → Str) : List Ty → List Ty
  | [] => []
  | t :: ts => renameTy ρ t :: renameTys ρ ts
@[inherit_doc renameTy]
def renameTyFields (ρ : Str → Str) : List (Name × Ty) → List (Name × Ty)
  | [] => []
  | (n, t) :: fs => (renameName ρ n, renameTy ρ t) :: renameTyFields ρ fs
end

/-- The signature with its names replaced. -/
def renameSignature (ρ : Str → Str) (g : FunctionSignature) : FunctionSignature :=
  ⟨renameName ρ g.name, renameTy ρ g.type_⟩

mutual
/-- The expression with its names, its numbers and the words of its strings replaced. -/
def renameExpr (ρ : Str → Str) : Expr → Expr
  | .Character c => .Character c
  | .String s => .String (renameText ρ s)
  | .Integer s => .Integer (renameText ρ s)
  | .Float s => .Float (renameText ρ s)
  | .Variable n => .Variable (n.map (renameName ρ))
  | .List es => .List (renameExprs ρ es)
  | .Tuple es => .Tuple (renameExprs ρ es)
  | .Access e n => .Access (renameExpr ρ e) (n.map (renameName ρ))
  | .AccessFunction n => .AccessFunction (renameName ρ n)
  | .Record fs => .Record (renameFields ρ fs)
  | .RecordUpdate n fs => .RecordUpdate (renameName ρ n) (renameFields ρ fs)
  | .If a b c => .If (renameExpr ρ a) (renameExpr ρ b) (renameExpr ρ c)
  | .Let ls e => .Let (renameEntries ρ ls) (renameExpr ρ e)
  | .Case e bs => .Case (renameExpr ρ e) (renameBranches ρ bs)
  | .Lambda as e => .Lambda (renameExprs ρ as) (renameExpr ρ e)
  | .Application a b => .Application (renameExpr ρ a) (renameExpr ρ b)
  | .BinOp o a b => .BinOp (renameExpr ρ o) (renameExpr ρ a) (renameExpr ρ b)
@[inherit_doc renameExpr]
def renameExprs (ρ : Str → Str) : List Expr → List Expr
  | [] => []
  | e :: es => renameExpr ρ e :: renameExprs ρ es
@[inherit_doc renameExpr]
def renameFields (ρ : Str → Str) : List (Name × Expr) → List (Name × Expr)
  | [] => []
  | (n, e) :: fs => (renameName ρ n, renameExpr ρ e) :: renameFields ρ fs
@[inherit_doc renameExpr]
def renameBranches (ρ : Str → Str) : List (Expr × Expr) → List (Expr × Expr)
  | [] => []
  | (a, b) :: bs => (renameExpr ρ a, renameExpr ρ b) :: renameBranches ρ bs
@[inherit_doc renameExpr]
def renameEntries (ρ : Str → Str) : List LetEntry → List LetEntry
  | [] => []
  | l :: ls => renameEntry ρ l :: renameEntries ρ ls
@[inherit_doc renameExpr]
def renameEntry (ρ : Str → Str) : LetEntry → LetEntry
  | .LetFunction f => .LetFunction (renameFunction ρ f)
  | .LetBinding a b => .LetBinding (renameExpr ρ a) (renameExpr ρ b)
@[inherit_doc renameExpr]
def renameFunction (ρ : Str → Str) : Function → Function
  | .mk g d => .mk (g.map (renameSignature ρ)) (renameDefinition ρ d)
@[inherit_doc renameExpr]
def renameDefinition (ρ : Str → Str) : FunctionDefinition → FunctionDefinition
  | .mk n as e => .mk (renameName ρ n) (renameExprs ρ as) (renameExpr ρ e)
end

mutual
/-- The exported names replaced. -/
def renameExport (ρ : Str → Str) : ExportSet → ExportSet
  | .AllExport => .AllExport
  | .SubsetExport xs => .SubsetExport (renameExports ρ xs)
  | .FunctionExport n => .FunctionExport (renameName ρ n)
  | .TypeExport n o => .TypeExport (renameName ρ n) (renameConstructors ρ o)
@[inherit_doc renameExport]
def renameExports (ρ : Str → Str) : List ExportSet → List ExportSet
  | [] => []
  | x :: xs => renameExport ρ x :: renameExports ρ xs
@[inherit_doc renameExport]
def renameConstructors (ρ : Str → Str) : Option ExportSet → Option ExportSet
  | none => none
  | some x => some (renameExport ρ x)
end

/-- The digits of a number, without leading zeros; the first argument bounds their number. -/
def numeralN : Nat → Nat → Str
  | 0, _ => []
  | k + 1, n => if n < 10 then [Char.ofNat (48 + n)] else numeralN k (n / 10) ++ [Char.ofNat (48 + n % 10)]
@[inherit_doc numeralN] def numeral (n : Nat) : Str := numeralN (n + 1) n

/-- The statement with its names, its numbers and the words of its strings and comments replaced. -/
def renameStatement (ρ : Str → Str) : Statement → Statement
  | .ModuleDeclaration n x => .ModuleDeclaration (n.map (renameName ρ)) (renameExport ρ x)
  | .PortModuleDeclaration n x => .PortModuleDeclaration (n.map (renameName ρ)) (renameExport ρ x)
  | .EffectModuleDeclaration n fs x =>
    .EffectModuleDeclaration (n.map (renameName ρ)) (fs.map fun f => (renameName ρ f.1, renameName ρ f.2)) (renameExport ρ x)
  | .ImportStatement n o x =>
    .ImportStatement (n.map (renameName ρ)) (o.map (renameName ρ)) (renameConstructors ρ x)
  | .TypeAliasDeclaration a b => .TypeAliasDeclaration (renameTy ρ a) (renameTy ρ b)
  | .TypeDeclaration a ts => .TypeDeclaration (renameTy ρ a) (renameTys ρ ts)
  | .PortTypeDeclaration n t => .PortTypeDeclaration (renameName ρ n) (renameTy ρ t)
  | .PortDeclaration n as e => .PortDeclaration (renameName ρ n) (as.map (renameName ρ)) (renameExpr ρ e)
  | .Function f => .Function (renameFunction ρ f)
  | .InfixDeclaration a p n => .InfixDeclaration a (decimal (ρ (numeral p.toNat))) (renameName ρ n)
  | .Comment s => .Comment (renameText ρ s)

end ElmParser.Spec.Rename
