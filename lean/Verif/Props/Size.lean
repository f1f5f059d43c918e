import Verif.Proofs.StmtOrder
import Verif.Props.Exprs
import Verif.Props.Trailing

/-! C51: the size of the tree is linear in the length of the text. -/
namespace ElmParser
open Spec

/-! ### The size of trees: values of the types of the tree (each counts one) and characters stored -/

/-- The characters of a list of names. -/
def letters (ns : List Name) : Nat := (ns.map List.length).sum

mutual
def tySize : Ty → Nat
  | .TypeConstructor ns args => 1 + letters ns + tySizes args
  | .TypeVariable n => 1 + n.length
  | .TypeRecordConstructor base fields => 1 + tySize base + tyFieldsSize fields
  | .TypeRecord fields => 1 + tyFieldsSize fields
  | .TypeTuple items => 1 + tySizes items
  | .TypeApplication a b => 1 + tySize a + tySize b
def tySizes : List Ty → Nat
  | [] => 0
  | t :: ts => tySize t + tySizes ts
def tyFieldsSize : List (Name × Ty) → Nat
  | [] => 0
  | (n, t) :: fs => 1 + n.length + tySize t + tyFieldsSize fs
end

def signatureSize : Option FunctionSignature → Nat
  | none => 0
  | some s => 1 + s.name.length + tySize s.type_

mutual
def exprSize : Expr → Nat
  | .Character _ => 2
  | .String s | .Integer s | .Float s => 1 + s.length
  | .Variable ns => 1 + letters ns
  | .List es | .Tuple es => 1 + exprSizes es
  | .Access e ns => 1 + exprSize e + letters ns
  | .AccessFunction n => 1 + n.length
  | .Record fs => 1 + fieldsSize fs
  | .RecordUpdate n fs => 1 + n.length + fieldsSize fs
  | .If a b c => 1 + exprSize a + exprSize b + exprSize c
  | .Let ls e => 1 + entriesSize ls + exprSize e
  | .Case e bs => 1 + exprSize e + branchesSize bs
  | .Lambda as e => 1 + exprSizes as + exprSize e
  | .Application f x => 1 + exprSize f + exprSize x
  | .BinOp o a b => 1 + exprSize o + exprSize a + exprSize b
def exprSizes : List Expr → Nat
  | [] => 0
  | e :: es => exprSize e + exprSizes es
def fieldsSize : List (Name × Expr) → Nat
  | [] => 0
  | (n, e) :: fs => 1 + n.length + exprSize e + fieldsSize fs
def branchesSize : List (Expr × Expr) → Nat
  | [] => 0
  | (a, b) :: bs => 1 + exprSize a + exprSize b + branchesSize bs
def defnSize : FunctionDefinition → Nat
  | .mk n as e => 1 + n.length + exprSizes as + exprSize e
def functionSize : Function → Nat
  | .mk sg d => 1 + signatureSize sg + defnSize d
def entrySize : LetEntry → Nat
  | .LetFunction f => 1 + functionSize f
  | .LetBinding t e => 1 + exprSize t + exprSize e
def entriesSize : List LetEntry → Nat
  | [] => 0
  | l :: ls => entrySize l + entriesSize ls
end

mutual
def exportSize : ExportSet → Nat
  | .AllExport => 1
  | .SubsetExport es => 1 + exportsSize es
  | .FunctionExport n => 1 + n.length
  | .TypeExport n none => 1 + n.length
  | .TypeExport n (some e) => 1 + n.length + exportSize e
def exportsSize : List ExportSet → Nat
  | [] => 0
  | e :: es => exportSize e + exportsSize es
end

def statementSize : Statement → Nat
  | .ModuleDeclaration ns e => 1 + letters ns + exportSize e
  | .PortModuleDeclaration ns e => 1 + letters ns + exportSize e
  | .EffectModuleDeclaration ns fs e =>
      1 + letters ns + (fs.map fun f => 1 + f.1.length + f.2.length).sum + exportSize e
  | .ImportStatement ns a e =>
      1 + letters ns + (match a with | some n => n.length | none => 0) +
        (match e with | some x => exportSize x | none => 0)
  | .TypeAliasDeclaration t u => 1 + tySize t + tySize u
  | .TypeDeclaration t us => 1 + tySize t + tySizes us
  | .PortTypeDeclaration n t => 1 + n.length + tySize t
  | .PortDeclaration n as e => 1 + n.length + letters as + exprSize e
  | .Function f => 1 + functionSize f
  | .InfixDeclaration _ _ n => 3 + n.length
  | .Comment t => 1 + t.length

def statementsSize (xs : List Statement) : Nat := (xs.map statementSize).sum

/-! ### Lexical facts -/

theorem len_word {H T : Char → Prop} {n : Str} (h : Word H T n) : 1 ≤ n.length := by
  obtain ⟨c, cs, rfl, -⟩ := h
  simp
theorem len_lo {n : Str} (h : LoName n) : 1 ≤ n.length := by
  rcases h with rfl | ⟨h, -⟩
  · simp
  · exact len_word h
theorem len_operator {n : Str} (h : Operator n) : 1 ≤ n.length := List.length_pos_iff.2 h.1
theorem len_ne {n : Str} (h : n ≠ []) : 1 ≤ n.length := List.length_pos_iff.2 h
theorem len_gap {ind i : Nat} {ir : IR} {g : Str} (h : GapTxt ind ir i g) : 1 ≤ g.length := by
  obtain ⟨_, _, -, h, -⟩ := h
  exact len_ne h
theorem len_dotted {ns : List Name} (h : ns ≠ []) (h' : ∀ n ∈ ns, UpName n) :
    1 ≤ (dotted ns).length ∧ letters ns ≤ (dotted ns).length := by
  induction ns with
  | nil => exact absurd rfl h
  | cons n ns ih =>
    have h1 := len_word (h' n (by simp))
    cases ns with
    | nil => simp [dotted, letters]; exact h1
    | cons m ns =>
      have := ih (by simp) (fun x hx => h' x (by simp [hx]))
      simp [dotted, letters] at this ⊢
      omega
theorem len_var {ns : List Name} {c : Str} (h : VarText ns c) : 1 + letters ns ≤ 2 * c.length := by
  cases h with
  | lo h => have := len_lo h; simp [letters]; omega
  | up h h' => have := len_dotted h h'; omega
  | op h => simp [letters]; omega
  | commas => simp [letters]; omega
theorem len_dots (ns : List Name) : letters ns ≤ (dots ns).length := by
  induction ns with
  | nil => simp [letters]
  | cons n ns ih => simp [letters, dots] at ih ⊢; omega
theorem len_fn {n m : Str} (h : FnName n m) : 1 ≤ n.length ∧ n.length ≤ m.length := by
  cases h with
  | lo h => exact ⟨len_lo h, Nat.le_refl _⟩
  | op h => exact ⟨len_operator h, by simp; omega⟩
theorem len_infix {n : Str} (h : InfixOp n) : 1 ≤ n.length := by
  rcases h with rfl | ⟨h, -⟩
  · simp
  · exact len_operator h

theorem len_simpFields {fs : List (Name × Expr)} {c : Str} (h : SimpFields fs c) : fieldsSize fs ≤ 2 * c.length := by
  induction h with
  | nil => simp [fieldsSize]
  | cons _ _ _ _ ih => simp [fieldsSize, exprSize, letters]; omega
theorem len_simpBody {fs : List (Name × Expr)} {c : Str} (h : SimpBody fs c) : fieldsSize fs ≤ 2 * c.length + 2 := by
  cases h with
  | nil => simp [fieldsSize]
  | cons _ _ _ h => have := len_simpFields h; simp [fieldsSize, exprSize, letters]; omega

/-! ### Types -/

def tyCatSize : TyCat → Nat
  | .atom t | .par t | .ty t | .ann t => tySize t
  | .args ts | .items ts => tySizes ts
  | .field (n, t) => n.length + tySize t + 1
  | .fields fs => tyFieldsSize fs

theorem len_tySrc {ind : Nat} {k : TyCat} {c : Str} (h : TySrc ind k c) : tyCatSize k ≤ 2 * c.length := by
  induction h with
  | var h => have := len_word h; simp [tyCatSize, tySize]; omega
  | @extRecord _ _ f => obtain ⟨n, t⟩ := f; simp [tyCatSize, tySize, tyFieldsSize] at *; omega
  | record0 => simp [tyCatSize, tySize, tyFieldsSize]; omega
  | @record _ f => obtain ⟨n, t⟩ := f; simp [tyCatSize, tySize, tyFieldsSize] at *; omega
  | tuple0 => simp [tyCatSize, tySize, tySizes]; omega
  | tuple => simp [tyCatSize, tySize, tySizes] at *; omega
  | parens => simp [tyCatSize, tySize] at *; omega
  | parAtom _ ih => exact ih
  | parConst h h' => have := len_dotted h h'; simp [tyCatSize, tySize, tySizes]; omega
  | tyAtom _ ih => exact ih
  | con h h' _ ih => have := len_dotted h h'; simp [tyCatSize, tySize] at ih ⊢; omega
  | args0 => simp [tyCatSize, tySizes]
  | args => simp [tyCatSize, tySizes] at *; omega
  | items0 => simp [tyCatSize, tySizes]
  | items => simp [tyCatSize, tySizes] at *; omega
  | field => simp [tyCatSize] at *; omega
  | fields0 => simp [tyCatSize, tyFieldsSize]
  | @fields _ f => obtain ⟨n, t⟩ := f; simp [tyCatSize, tyFieldsSize] at *; omega
  | annTy _ ih => exact ih
  | annArrow => simp [tyCatSize, tySize] at *; omega

/-! ### Expressions -/

def catSize : Cat → Nat
  | .closed e | .term e | .app e | .expr e | .target e => exprSize e
  | .args es => exprSizes es + es.length
  | .items es | .comps es | .largs es | .fargs es => exprSizes es
  | .field (n, e) | .upd (n, e) => n.length + exprSize e + 1
  | .fields fs | .upds fs => fieldsSize fs
  | .entry l => entrySize l
  | .entries ls => entriesSize ls
  | .defn d => defnSize d + 2
  | .fn f => functionSize f + 1
  | .branch (a, b) => 1 + exprSize a + exprSize b
  | .branches bs => branchesSize bs

theorem size_foldl (e : Expr) (es : List Expr) :
    exprSize (es.foldl .Application e) = exprSize e + (exprSizes es + es.length) := by
  induction es generalizing e with
  | nil => simp [exprSizes]
  | cons x es ih => rw [List.foldl_cons, ih]; simp [exprSize, exprSizes]; omega

theorem len_src {st : Prop} {ind j : Nat} {k : Cat} {c : Str} (h : SrcAt st ind j k c) : catSize k ≤ 2 * c.length := by
  induction h with
  | var h => exact len_var h
  | @access _ _ _ _ n ms h =>
    have := len_var h; have := len_dots (n :: ms); simp only [dots] at *; simp [catSize, exprSize, letters] at *; omega
  | accessFn h => have := len_lo h; simp [catSize, exprSize]; omega
  | str0 => simp [catSize, exprSize]
  | int h =>
    obtain ⟨s, d, rfl, -, h, -⟩ := h
    have := len_ne h; simp [catSize, exprSize]; omega
  | float h =>
    obtain ⟨s, d, e, rfl, -, h, -⟩ := h
    simp [catSize, exprSize]; omega
  | closed _ ih => exact ih
  | str1 => simp [catSize, exprSize]; omega
  | str3 => simp [catSize, exprSize]; omega
  | char => simp [catSize, exprSize]; omega
  | parens => simp [catSize] at *; omega
  | list0 => simp [catSize, exprSize, exprSizes]; omega
  | list => simp [catSize, exprSize, exprSizes] at *; omega
  | tuple0 => simp [catSize, exprSize, exprSizes]
  | tuple1 => simp [catSize, exprSize, exprSizes] at *; omega
  | tuple => simp [catSize, exprSize, exprSizes] at *; omega
  | record0 => simp [catSize, exprSize, fieldsSize]; omega
  | @record _ _ f => obtain ⟨n, e⟩ := f; simp [catSize, exprSize, fieldsSize] at *; omega
  | simp h => have := len_simpBody h; simp [catSize, exprSize]; omega
  | @update _ _ _ f => obtain ⟨n, e⟩ := f; simp [catSize, exprSize, fieldsSize] at *; omega
  | update0 => simp [catSize, exprSize, fieldsSize]; omega
  | items0 => simp [catSize, exprSizes]
  | items => simp [catSize, exprSizes] at *; omega
  | comps0 => simp [catSize, exprSizes]
  | comps => simp [catSize, exprSizes] at *; omega
  | field => simp [catSize] at *; omega
  | fields0 => simp [catSize, fieldsSize]
  | @fields _ _ f => obtain ⟨n, e⟩ := f; simp [catSize, fieldsSize] at *; omega
  | upd => simp [catSize] at *; omega
  | upds0 => simp [catSize, fieldsSize]
  | @upds _ _ f => obtain ⟨n, e⟩ := f; simp [catSize, fieldsSize] at *; omega
  | args0 => simp [catSize, exprSizes]
  | args h => have := len_gap h; simp [catSize, exprSizes] at *; omega
  | app => simp [catSize, size_foldl] at *; omega
  | eApp _ ih => exact ih
  | binop _ h h' => have := len_gap h; simp [catSize, exprSize, letters] at *; omega
  | let_ => simp [catSize, exprSize, entriesSize] at *; omega
  | @case_ _ _ _ _ _ _ b => obtain ⟨x, y⟩ := b; simp [catSize, exprSize, branchesSize] at *; omega
  | if_ => simp [catSize, exprSize] at *; omega
  | lambda => simp [catSize, exprSize, exprSizes] at *; omega
  | largs0 => simp [catSize, exprSizes]
  | largs => simp [catSize, exprSizes] at *; omega
  | tVar h => exact len_var h
  | tList0 => simp [catSize, exprSize, exprSizes]; omega
  | tList => simp [catSize, exprSize, exprSizes] at *; omega
  | tTuple0 => simp [catSize, exprSize, exprSizes]
  | tTuple => simp [catSize, exprSize, exprSizes] at *; omega
  | tRecord h => have := len_simpBody h; simp [catSize, exprSize]; omega
  | binding => simp [catSize, entrySize] at *; omega
  | function => simp [catSize, entrySize] at *; omega
  | entries0 => simp [catSize, entriesSize]
  | entries => simp [catSize, entriesSize] at *; omega
  | fargs0 => simp [catSize, exprSizes]
  | fargs => simp [catSize, exprSizes] at *; omega
  | defn h _ hw hg => have := len_fn h; have := len_gap hg; simp [catSize, defnSize] at *; omega
  | fn => simp [catSize, functionSize, signatureSize] at *; omega
  | fnSig h _ _ ht => have := len_fn h; have := len_tySrc ht; simp [catSize, functionSize, signatureSize, tyCatSize] at *; omega
  | branch => simp [catSize] at *; omega
  | branches0 => simp [catSize, branchesSize]
  | @branches _ _ _ b => obtain ⟨x, y⟩ := b; simp [catSize, branchesSize] at *; omega

/-! ### Statements -/

theorem len_commaNames {ns : List Name} (h : ns ≠ []) :
    exportsSize (ns.map .FunctionExport) ≤ 2 * (commaNames ns).length + 1 := by
  induction ns with
  | nil => exact absurd rfl h
  | cons n ns ih =>
    cases ns with
    | nil => simp [commaNames, exportsSize, exportSize]; omega
    | cons m ns =>
      have := ih (by simp)
      simp [commaNames, exportsSize, exportSize] at this ⊢
      omega

theorem len_export {e : ExportSet} {c : Str} (h : ExportText e c) : exportSize e ≤ 2 * c.length := by
  cases h with
  | function h => have := len_fn h; simp [exportSize]; omega
  | type_ h h' =>
    have := len_word h
    cases h' with
    | none => simp [exportSize]; omega
    | all => simp [exportSize]; omega
    | some h2 => have := len_commaNames h2; simp [exportSize]; omega
theorem len_exportItems {es : List ExportSet} {c : Str} (h : ExportItems es c) : exportsSize es ≤ 2 * c.length := by
  induction h with
  | nil => simp [exportsSize]
  | cons _ _ h _ ih => have := len_export h; simp [exportsSize]; omega
theorem len_exports {e : ExportSet} {c : Str} (h : ExportsText e c) : exportSize e ≤ 2 * c.length := by
  cases h with
  | all => simp [exportSize]; omega
  | some _ h h' => have := len_export h; have := len_exportItems h'; simp [exportSize, exportsSize]; omega

theorem len_effect {f : Name × Name} {c : Str} (h : EffectText f c) : 1 + f.1.length + f.2.length ≤ 2 * c.length := by
  cases h with
  | mk => simp; omega
theorem len_effectItems {fs : List (Name × Name)} {c : Str} (h : EffectItems fs c) :
    (fs.map fun f => 1 + f.1.length + f.2.length).sum ≤ 2 * c.length := by
  induction h with
  | nil => simp
  | cons h _ ih => have := len_effect h; simp; omega
theorem len_effects {fs : List (Name × Name)} {c : Str} (h : EffectsText fs c) :
    (fs.map fun f => 1 + f.1.length + f.2.length).sum ≤ 2 * c.length := by
  cases h with
  | nil => simp
  | cons h h' => have := len_effect h; have := len_effectItems h'; simp; omega
theorem len_portArgs {ns : List Name} {c : Str} (h : PortArgs ns c) : letters ns ≤ c.length := by
  induction h with
  | nil => simp [letters]
  | cons => simp [letters] at *; omega
theorem len_constructors {ind : Nat} {us : List Ty} {c : Str} (h : ConstructorItems ind us c) :
    tySizes us ≤ 2 * c.length := by
  induction h with
  | nil => simp [tySizes]
  | cons _ _ h _ ih => have := len_tySrc h; simp only [tyCatSize] at this; simp [tySizes]; omega

theorem len_stmt {st : Prop} {x : Statement} {c : Str} (h : StmtSrc st x c) : statementSize x ≤ 2 * c.length := by
  cases h with
  | portModule _ _ h1 h2 _ _ h3 => have := len_dotted h1 h2; have := len_exports h3; simp [statementSize]; omega
  | effectModule _ _ h1 h2 _ _ h4 _ _ h3 =>
    have := len_dotted h1 h2; have := len_exports h3; have := len_effects h4; simp [statementSize]; omega
  | module_ _ h1 h2 _ _ h3 => have := len_dotted h1 h2; have := len_exports h3; simp [statementSize]; omega
  | import_ _ h1 h2 h3 h4 =>
    have := len_dotted h1 h2
    cases h3 <;> cases h4 <;> (try have := len_exports ‹_›) <;> simp [statementSize] <;> omega
  | typeAlias _ _ h1 _ _ h2 =>
    have := len_tySrc h1; have := len_tySrc h2; simp only [tyCatSize] at *; simp [statementSize]; omega
  | type_ _ h1 _ _ h2 h3 =>
    have := len_tySrc h1; have := len_tySrc h2; have := len_constructors h3
    simp only [tyCatSize] at *; simp [statementSize, tySizes]; omega
  | portType _ _ _ _ h => have := len_tySrc h; simp only [tyCatSize] at *; simp [statementSize]; omega
  | port _ _ h1 _ _ h2 =>
    have := len_portArgs h1; have := len_src h2; simp only [catSize] at *; simp [statementSize]; omega
  | function h => have := len_src h; simp only [catSize] at *; simp [statementSize]; omega
  | @infix_ a => cases a <;> simp [statementSize, assocText] <;> omega
  | block => simp [statementSize]; omega

theorem len_stmts {st : Prop} {b : Bool} {xs : List Statement} {c : Str} (h : Stmts st b xs c) :
    statementsSize xs ≤ 2 * c.length := by
  induction h with
  | last => simp [statementsSize]
  | sep _ _ _ _ ih => simp; omega
  | line _ _ _ ih => simp [statementsSize, statementSize] at *; omega
  | stmt h _ ih => have := len_stmt h; simp [statementsSize] at *; omega

/-! ### C51 -/

/-- C51: the tree of an expression has at most twice as many nodes and characters as were read. -/
theorem C51_expression {ind : Nat} {s r : Str} {e : Expr} (h : expression ind s = .ok e r) :
    exprSize e + 2 * r.length ≤ 2 * s.length := by
  obtain ⟨c, rfl, hc⟩ := eSound_expression h
  have := len_src hc
  simp [catSize] at this ⊢
  omega

@[inherit_doc C51_expression]
theorem C51_type {ind : Nat} {s r : Str} {t : Ty} (h : typeAnnotation ind s = .ok t r) :
    tySize t + 2 * r.length ≤ 2 * s.length := by
  obtain ⟨c, rfl, hc⟩ := typeAnnotation_sound h
  have := len_tySrc hc
  simp [tyCatSize] at this ⊢
  omega
example := C51_type (ind := 0) (s := c!"(a -> List b) -> { x : Int } -> c\n=") rfl

@[inherit_doc C51_expression]
theorem C51_statement {s r : Str} {x : Statement} (h : statement s = .ok x r) :
    statementSize x + 2 * r.length ≤ 2 * s.length := by
  rcases statement_sound h with ⟨t, rfl, rfl, -⟩ | ⟨c, rfl, hc⟩
  · simp [statementSize]
    omega
  · have := len_stmt hc
    simp
    omega
example := C51_statement (s := c!"import A.B as C exposing (f, T(..), (+))\n\nx = 1") rfl

/-- C51: the statements of a file together have at most twice as many nodes and characters as the file. -/
theorem C51_file {s r : Str} {xs : List Statement} (h : file s = .ok xs r) :
    statementsSize xs ≤ 2 * s.length := by
  obtain ⟨-, w, d, rfl, -, hd⟩ := file_sound h
  have := len_stmts hd
  simp
  omega
example := C51_file (s := c!"import A as B exposing (f, T(C, D))\n\n-- c\nf : Int -> a\nf x =\n  g x.y \"s\"\n") rfl

/-! ### The factor cannot be improved -/

/-- `{x,x,…,x}` with `n + 1` fields -/
def shorthand (n : Nat) : Str := c!"{x" ++ (List.replicate n c!",x").flatten ++ c!"}"

/-- The field of `{x}`. -/
def shortField : Name × Expr := (c!"x", .Variable [c!"x"])

theorem loName_x : LoName c!"x" :=
  .inr ⟨⟨'x', [], rfl, by decide, by simp⟩, by decide⟩

theorem simpFields_x (n : Nat) :
    SimpFields (List.replicate n shortField) (List.replicate n c!",x").flatten := by
  induction n with
  | zero => exact .nil
  | succ n ih =>
    exact .cons (w1 := []) (w2 := []) loName_x (by simp [Whites]) (by simp [Whites]) ih

theorem fieldsSize_replicate (n : Nat) : fieldsSize (List.replicate n shortField) = 4 * n := by
  induction n with
  | zero => rfl
  | succ n ih => simp [List.replicate_succ, fieldsSize, shortField, exprSize, letters] at ih ⊢; omega

theorem length_shorthand (n : Nat) : (shorthand n).length = 2 * n + 3 := by
  have : ((List.replicate n c!",x").flatten).length = 2 * n := by
    simp [List.length_flatten]; omega
  simp [shorthand] at this ⊢
  omega

/-- C51: the factor two is needed: the tree of `{x,x,…,x}` is one short of the bound, for every number of fields. -/
theorem C51_sharp (ind n : Nat) :
    ∃ e, expression ind (shorthand n) = .ok e [] ∧ exprSize e + 1 = 2 * (shorthand n).length := by
  have hsrc : Src True ind (.expr (.Record (List.replicate (n + 1) shortField))) (shorthand n) := by
    have h : SimpBody (shortField :: List.replicate n shortField) (c!"x" ++ (List.replicate n c!",x").flatten) :=
      .cons (w1 := []) (w2 := []) loName_x (by simp [Whites]) (by simp [Whites]) (simpFields_x n)
    have h2 := SrcAt.app (st := True) (ind := ind) (j := ind + 1) (.closed (.simp h)) .args0
    simpa [shorthand, List.replicate_succ] using SrcAt.eApp h2
  have := expression_complete hsrc (stop_nil ind)
  rw [List.append_nil] at this
  refine ⟨_, this, ?_⟩
  rw [exprSize, fieldsSize_replicate, length_shorthand]
  omega

/-- C51: there is no bound the other way round: white space leaves no trace in the tree. -/
theorem C51_no_converse (n : Nat) : ∃ s xs, file s = .ok xs [] ∧ n ≤ s.length ∧ statementsSize xs = 6 := by
  have h : file c!"x = y" = .ok [.Function (.mk none (.mk c!"x" [] (.Variable [c!"y"])))] [] := rfl
  refine ⟨c!"x = y" ++ '\n' :: List.replicate n '\n', _, (C42_file _ fun c hc => ?_).trans h, ?_, rfl⟩
  · exact (List.eq_of_mem_replicate hc) ▸ (by decide)
  · simp
    omega

/-! ### Examples -/

example : expression 0 c!"f { x, y } 12" = .ok (.Application (.Application (.Variable [c!"f"])
    (.Record [(c!"x", .Variable [c!"x"]), (c!"y", .Variable [c!"y"])])) (.Integer c!"12")) [] := rfl
example : exprSize (.Application (.Application (.Variable [c!"f"])
    (.Record [(c!"x", .Variable [c!"x"]), (c!"y", .Variable [c!"y"])])) (.Integer c!"12")) = 16 := rfl
example : 16 + 2 * 0 ≤ 2 * (c!"f { x, y } 12").length := C51_expression (ind := 0) (s := c!"f { x, y } 12") (r := [])
  (e := .Application (.Application (.Variable [c!"f"])
    (.Record [(c!"x", .Variable [c!"x"]), (c!"y", .Variable [c!"y"])])) (.Integer c!"12")) rfl
example : typeAnnotation 0 c!"List a -> ()" =
    .ok (.TypeApplication (.TypeConstructor [c!"List"] [.TypeVariable c!"a"]) (.TypeTuple [])) [] := rfl
example : tySize (.TypeApplication (.TypeConstructor [c!"List"] [.TypeVariable c!"a"]) (.TypeTuple [])) = 9 := rfl
example : statement c!"import A.B as C" = .ok (.ImportStatement [c!"A", c!"B"] (some c!"C") none) [] := rfl
example : statementSize (.ImportStatement [c!"A", c!"B"] (some c!"C") none) = 4 := rfl
example : file c!"--a\nx = y\n" =
    .ok [.Comment c!"a", .Function (.mk none (.mk c!"x" [] (.Variable [c!"y"])))] [] := rfl
example : statementsSize [.Comment c!"a", .Function (.mk none (.mk c!"x" [] (.Variable [c!"y"])))] = 8 := rfl
example : shorthand 2 = c!"{x,x,x}" := rfl

end ElmParser
