import Verif.Spec.Exprs

/-! The concrete syntax of statements and files: which texts are layouts of which statements, and
which statements have a text at all.  Independent of the parser. -/
namespace ElmParser.Spec

/-- Spaces and newlines, possibly none. -/
def OptSpaceNl (w : Str) : Prop := ∀ c ∈ w, c = ' ' ∨ c = '\n'
/-- Spaces, possibly none. -/
def OptSpaces (w : Str) : Prop := ∀ c ∈ w, c = ' '

/-! ### Export lists -/

/-- `A, B, C` -/
def commaNames : List Name → Str
  | [] => []
  | [n] => n
  | n :: ns => n ++ c!", " ++ commaNames ns

/-- What may follow an exported type: nothing, `(..)` or `(A, B)`. -/
inductive ConsText : Option ExportSet → Str → Prop
  | none : ConsText none []
  | all : ConsText (some .AllExport) c!"(..)"
  | some {ns} : ns ≠ [] → (∀ n ∈ ns, UpName n) →
      ConsText (some (.SubsetExport (ns.map .FunctionExport))) (c!"(" ++ commaNames ns ++ c!")")

/-- One element of an export list. -/
inductive ExportText : ExportSet → Str → Prop
  | function {n m} : FnName n m → ExportText (.FunctionExport n) m
  | type_ {n o c} : UpName n → ConsText o c → ExportText (.TypeExport n o) (n ++ c)

/-- Further elements, each with its comma. -/
inductive ExportItems : List ExportSet → Str → Prop
  | nil : ExportItems [] []
  | cons {e es w1 w2 c cs} : OptSpaceNl w1 → OptSpaceNl w2 → ExportText e c → ExportItems es cs →
      ExportItems (e :: es) (w1 ++ c!"," ++ w2 ++ c ++ cs)

/-- An export list with its parentheses. -/
inductive ExportsText : ExportSet → Str → Prop
  | all {g1 g2} : OptGapTxt 0 .GTE g1 → OptGapTxt 0 .GTE g2 →
      ExportsText .AllExport (c!"(" ++ g1 ++ c!".." ++ g2 ++ c!")")
  | some {e es g1 c cs g2} : OptGapTxt 0 .GTE g1 → ExportText e c → ExportItems es cs → OptGapTxt 0 .GTE g2 →
      ExportsText (.SubsetExport (e :: es)) (c!"(" ++ g1 ++ c ++ cs ++ g2 ++ c!")")

/-! ### Statements -/

/-- One `name = Type` of an effect module. -/
inductive EffectText : Name × Name → Str → Prop
  | mk {n u w1 w2} : LoName n → OptSpaces w1 → OptSpaces w2 → UpName u →
      EffectText (n, u) (n ++ w1 ++ c!"=" ++ w2 ++ u)

/-- Further ones, each with the comma before it. -/
inductive EffectItems : List (Name × Name) → Str → Prop
  | nil : EffectItems [] []
  | cons {f fs c cs} : EffectText f c → EffectItems fs cs → EffectItems (f :: fs) (c!", " ++ c ++ cs)

/-- All of them. -/
inductive EffectsText : List (Name × Name) → Str → Prop
  | nil : EffectsText [] []
  | cons {f fs c cs} : EffectText f c → EffectItems fs cs → EffectsText (f :: fs) (c ++ cs)

/-- ` as A`, if there is an alias. -/
inductive AliasText : Option Name → Str → Prop
  | none : AliasText none []
  | some {n w1 w2} : SpacesTxt w1 → SpacesTxt w2 → UpName n → AliasText (some n) (w1 ++ c!"as" ++ w2 ++ n)

/-- ` exposing (..)`, if there is an export list. -/
inductive ExposingText : Option ExportSet → Str → Prop
  | none : ExposingText none []
  | some {e w1 w2 c} : SpacesTxt w1 → SpacesTxt w2 → ExportsText e c →
      ExposingText (some e) (w1 ++ c!"exposing" ++ w2 ++ c)

/-- Further constructors of a type, each with the bar before it. -/
inductive ConstructorItems (ind : Nat) : List Ty → Str → Prop
  | nil : ConstructorItems ind [] []
  | cons {ns ts us g i w c cs} : GapTxt ind .GTE i g → SpacesTxt w →
      TySrc ind (.ty (.TypeConstructor ns ts)) c → ConstructorItems ind us cs →
      ConstructorItems ind (.TypeConstructor ns ts :: us) (g ++ c!"|" ++ w ++ c ++ cs)

/-- Arguments of a port declaration, each with the spaces before it. -/
inductive PortArgs : List Name → Str → Prop
  | nil : PortArgs [] []
  | cons {n ns w cs} : SpacesTxt w → LoName n → PortArgs ns cs → PortArgs (n :: ns) (w ++ n ++ cs)

/-- The number a string of digits denotes. -/
def decimal : Str → Nat
  | [] => 0
  | c :: cs => (c.toNat - 48) * 10 ^ cs.length + decimal cs

/-- The keyword of an infix declaration. -/
def assocText : Assoc → Str
  | .L => c!"infixl"
  | .R => c!"infixr"
  | .N => c!"infix"

/-- The largest `i64`. -/
def i64Max : Nat := 9223372036854775807

/-- `StmtSrc st s c`: the text `c` is a layout of the statement `s`, which is not a line comment.  The flag is that of
`Src`. -/
inductive StmtSrc (st : Prop) : Statement → Str → Prop
  | portModule {ns e g1 g2 g3 g4 i1 i2 i3 i4 c} : GapTxt 0 .GT i1 g1 → GapTxt 0 .GT i2 g2 → ns ≠ [] →
      (∀ n ∈ ns, UpName n) → GapTxt 0 .GT i3 g3 → GapTxt 0 .GT i4 g4 → ExportsText e c →
      StmtSrc st (.PortModuleDeclaration ns e)
        (c!"port" ++ g1 ++ c!"module" ++ g2 ++ dotted ns ++ g3 ++ c!"exposing" ++ g4 ++ c)
  | effectModule {ns fs e g1 g2 g3 g4 g5 g6 i1 i2 i3 i4 i5 i6 d c} : GapTxt 0 .GT i1 g1 → GapTxt 0 .GT i2 g2 →
      ns ≠ [] → (∀ n ∈ ns, UpName n) → GapTxt 0 .GT i3 g3 → GapTxt 0 .GT i4 g4 → EffectsText fs d →
      GapTxt 0 .GT i5 g5 → GapTxt 0 .GT i6 g6 → ExportsText e c →
      StmtSrc st (.EffectModuleDeclaration ns fs e)
        (c!"effect" ++ g1 ++ c!"module" ++ g2 ++ dotted ns ++ g3 ++ c!"where" ++ g4 ++ c!"{" ++ d ++ c!"}" ++ g5 ++
          c!"exposing" ++ g6 ++ c)
  | module_ {ns e g2 g3 g4 i2 i3 i4 c} : GapTxt 0 .GT i2 g2 → ns ≠ [] →
      (∀ n ∈ ns, UpName n) → GapTxt 0 .GT i3 g3 → GapTxt 0 .GT i4 g4 → ExportsText e c →
      StmtSrc st (.ModuleDeclaration ns e)
        (c!"module" ++ g2 ++ dotted ns ++ g3 ++ c!"exposing" ++ g4 ++ c)
  | import_ {ns a e w c d} : SpacesTxt w → ns ≠ [] → (∀ n ∈ ns, UpName n) → AliasText a c → ExposingText e d →
      StmtSrc st (.ImportStatement ns a e) (c!"import" ++ w ++ dotted ns ++ c ++ d)
  | typeAlias {t u w1 w2 w3 g i c d} : SpacesTxt w1 → SpacesTxt w2 → TySrc 0 (.ty t) c → SpacesTxt w3 →
      GapTxt 1 .GTE i g → TySrc 1 (.ann u) d →
      StmtSrc st (.TypeAliasDeclaration t u) (c!"type" ++ w1 ++ c!"alias" ++ w2 ++ c ++ w3 ++ c!"=" ++ g ++ d)
  | type_ {t ns ts us w g1 i g2 i2 c d ds} : SpacesTxt w → TySrc 0 (.ty t) c → GapTxt 0 .GT i g1 →
      GapTxt i .GTE i2 g2 → TySrc i (.ty (.TypeConstructor ns ts)) d → ConstructorItems i us ds →
      StmtSrc st (.TypeDeclaration t (.TypeConstructor ns ts :: us))
        (c!"type" ++ w ++ c ++ g1 ++ c!"=" ++ g2 ++ d ++ ds)
  | portType {n t w1 w2 g i c} : SpacesTxt w1 → LoName n → SpacesTxt w2 → GapTxt 0 .GT i g → TySrc i (.ann t) c →
      StmtSrc st (.PortTypeDeclaration n t) (c!"port" ++ w1 ++ n ++ w2 ++ c!":" ++ g ++ c)
  | port {n as e w1 cs w2 g i c} : SpacesTxt w1 → LoName n → PortArgs as cs → SpacesTxt w2 → GapTxt 0 .GT i g →
      Src st i (.expr e) c →
      StmtSrc st (.PortDeclaration n as e) (c!"port" ++ w1 ++ n ++ cs ++ w2 ++ c!"=" ++ g ++ c)
  | function {f c} : Src st 0 (.fn f) c → StmtSrc st (.Function f) c
  | infix_ {a n w1 d w2} : SpacesTxt w1 → Digits d → decimal d ≤ i64Max → SpacesTxt w2 → LoName n ∨ Operator n →
      StmtSrc st (.InfixDeclaration a (decimal d) n) (assocText a ++ w1 ++ d ++ w2 ++ n)
  /-- `{- ... -}` -/
  | block {t} : (∀ a b, t ≠ a ++ c!"-}" ++ b) → StmtSrc st (.Comment t) (c!"{-" ++ t ++ c!"-}")

/-- `Stmts st b sts c`: the text `c` is a layout of the statements `sts`.  With `b = true` it starts with the
first statement, with `b = false` with the white space before it.  In the strict case (`st := True`) a
statement starts at the beginning of a line, except that line comments may stand anywhere. -/
inductive Stmts (st : Prop) : Bool → List Statement → Str → Prop
  | last {w} : Whites w → Stmts st false [] w
  | sep {w sts c} : Whites w → w ≠ [] → (st → (∃ u, w = u ++ ['\n']) ∨ ∃ u, c = '-' :: '-' :: u) →
      Stmts st true sts c → Stmts st false sts (w ++ c)
  | line {t sts r} : '\n' ∉ t → Next (· = '\n') r → Stmts st false sts r →
      Stmts st true (.Comment t :: sts) (c!"--" ++ t ++ r)
  | stmt {s c sts r} : StmtSrc st s c → Stmts st false sts r → Stmts st true (s :: sts) (c ++ r)

/-- The text `c` is a file with the statements `sts`. -/
def FileSrc (st : Prop) (sts : List Statement) (c : Str) : Prop :=
  ∃ w d, c = w ++ d ∧ Whites w ∧ Stmts st true sts d

/-! ### Well-formed statements -/

/-- The constructors that can be exported with a type. -/
def WFCons : Option ExportSet → Prop
  | none => True
  | some .AllExport => True
  | some (.SubsetExport es) => es ≠ [] ∧ ∀ e ∈ es, ∃ n, e = .FunctionExport n ∧ UpName n
  | some _ => False

/-- The elements of an export list. -/
def WFExport : ExportSet → Prop
  | .FunctionExport n => LoName n ∨ Operator n
  | .TypeExport n o => UpName n ∧ WFCons o
  | _ => False

/-- The export lists. -/
def WFExports : ExportSet → Prop
  | .AllExport => True
  | .SubsetExport es => es ≠ [] ∧ ∀ e ∈ es, WFExport e
  | _ => False

/-- A module name. -/
def WFModule (ns : List Name) : Prop := ns ≠ [] ∧ ∀ n ∈ ns, UpName n

/-- The statements that can be written. -/
def WFStatement : Statement → Prop
  | .ModuleDeclaration ns e => WFModule ns ∧ WFExports e
  | .PortModuleDeclaration ns e => WFModule ns ∧ WFExports e
  | .EffectModuleDeclaration ns fs e => WFModule ns ∧ (∀ f ∈ fs, LoName f.1 ∧ UpName f.2) ∧ WFExports e
  | .ImportStatement ns a e => WFModule ns ∧ (∀ n, a = some n → UpName n) ∧ ∀ x, e = some x → WFExports x
  | .TypeAliasDeclaration t u => WFTy t ∧ WFTy u
  | .TypeDeclaration t us => WFTy t ∧ us ≠ [] ∧ ∀ u ∈ us, WFTy u ∧ ∃ ns ts, u = .TypeConstructor ns ts
  | .PortTypeDeclaration n t => LoName n ∧ WFTy t
  | .PortDeclaration n as e => LoName n ∧ (∀ a ∈ as, LoName a) ∧ WFExpr e
  | .Function f => WFFunction f
  | .InfixDeclaration _ p n => (0 ≤ p ∧ p ≤ 9223372036854775807) ∧ (LoName n ∨ Operator n)
  | .Comment t => '\n' ∉ t ∨ ∀ a b, t ≠ a ++ c!"-}" ++ b

end ElmParser.Spec
