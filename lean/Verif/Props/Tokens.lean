import Verif.Proofs.StmtOrder
import Verif.Props.Exprs

/-! C21 once more, without the grammar: the text is the leaves of the tree in order, and fixed tokens, white space and
line comments between them.  Every character of the text is accounted for. -/
namespace ElmParser
open Spec

/-- A leaf of a tree. -/
inductive Leaf where
  /-- a name, operator, literal or comment, stored as it is written -/
  | word (w : Str)
  /-- the name of a record field -/
  | field (w : Str)
  /-- a character literal -/
  | chr (c : Char)
  /-- the priority of an infix declaration -/
  | num (n : Int)

/-- The spellings of a leaf. -/
def Leaf.text : Leaf → Str → Prop
  | .word w, t => t = w
  | .field w, t => t = w
  | .chr c, t => CharText t c
  | .num n, t => Digits t ∧ n = decimal t

/-- The tokens that leave no trace in the tree. -/
def fixedTokens : List Str :=
  [c!"(", c!")", c!"[", c!"]", c!"{", c!"}", c!",", c!"=", c!"|", c!"->", c!":", c!"\\", c!".", c!"'", c!"\"",
   c!"\"\"\"", c!"--", c!"{-", c!"-}", c!"let", c!"in", c!"case", c!"of", c!"if", c!"then", c!"else", c!"module",
   c!"port", c!"effect", c!"where", c!"exposing", c!"import", c!"as", c!"type", c!"alias"]

/-- `Weave ls c`: the text `c` is the leaves `ls` in this order, each once, and between them only fixed tokens, white
space and line comments.  A field `{ x }` is its name and its value at once. -/
inductive Weave : List Leaf → Str → Prop
  | nil : Weave [] []
  | white {x ls c} : White x → Weave ls c → Weave ls (x :: c)
  | comment {t ls c} : '\n' ∉ t → Weave ls c → Weave ls (c!"--" ++ t ++ c!"\n" ++ c)
  | fixed {t ls c} : t ∈ fixedTokens → Weave ls c → Weave ls (t ++ c)
  | leaf {l t ls c} : Leaf.text l t → Weave ls c → Weave (l :: ls) (t ++ c)
  | short {n ls c} : Weave ls c → Weave (.field n :: .word n :: ls) (n ++ c)

/-! ### The leaves of trees, in the order of the source -/

def words (ns : List Name) : List Leaf := ns.map .word

mutual
def tyLeaves : Ty → List Leaf
  | .TypeConstructor ns args => words ns ++ tysLeaves args
  | .TypeVariable n => [.word n]
  | .TypeRecordConstructor base fields => tyLeaves base ++ tyFieldsLeaves fields
  | .TypeRecord fields => tyFieldsLeaves fields
  | .TypeTuple items => tysLeaves items
  | .TypeApplication a b => tyLeaves a ++ tyLeaves b
def tysLeaves : List Ty → List Leaf
  | [] => []
  | t :: ts => tyLeaves t ++ tysLeaves ts
def tyFieldsLeaves : List (Name × Ty) → List Leaf
  | [] => []
  | (n, t) :: fs => .word n :: tyLeaves t ++ tyFieldsLeaves fs
end

def signatureLeaves : Option FunctionSignature → List Leaf
  | none => []
  | some s => .word s.name :: tyLeaves s.type_

mutual
def exprLeaves : Expr → List Leaf
  | .Character c => [.chr c]
  | .String s | .Integer s | .Float s => [.word s]
  | .Variable ns => words ns
  | .List es | .Tuple es => exprsLeaves es
  | .Access e ns => exprLeaves e ++ words ns
  | .AccessFunction n => [.word n]
  | .Record fs => fieldsLeaves fs
  | .RecordUpdate n fs => .word n :: fieldsLeaves fs
  | .If a b c => exprLeaves a ++ exprLeaves b ++ exprLeaves c
  | .Let ls e => entriesLeaves ls ++ exprLeaves e
  | .Case e bs => exprLeaves e ++ branchesLeaves bs
  | .Lambda as e => exprsLeaves as ++ exprLeaves e
  | .Application f x => exprLeaves f ++ exprLeaves x
  | .BinOp o a b => exprLeaves a ++ exprLeaves o ++ exprLeaves b
def exprsLeaves : List Expr → List Leaf
  | [] => []
  | e :: es => exprLeaves e ++ exprsLeaves es
def fieldsLeaves : List (Name × Expr) → List Leaf
  | [] => []
  | (n, e) :: fs => .field n :: exprLeaves e ++ fieldsLeaves fs
def branchesLeaves : List (Expr × Expr) → List Leaf
  | [] => []
  | (a, b) :: bs => exprLeaves a ++ exprLeaves b ++ branchesLeaves bs
def defnLeaves : FunctionDefinition → List Leaf
  | .mk n as e => .word n :: exprsLeaves as ++ exprLeaves e
def functionLeaves : Function → List Leaf
  | .mk sg d => signatureLeaves sg ++ defnLeaves d
def entryLeaves : LetEntry → List Leaf
  | .LetFunction f => functionLeaves f
  | .LetBinding t e => exprLeaves t ++ exprLeaves e
def entriesLeaves : List LetEntry → List Leaf
  | [] => []
  | l :: ls => entryLeaves l ++ entriesLeaves ls
end

mutual
def exportLeaves : ExportSet → List Leaf
  | .AllExport => [.word c!".."]
  | .SubsetExport es => exportsLeaves es
  | .FunctionExport n => [.word n]
  | .TypeExport n none => [.word n]
  | .TypeExport n (some e) => .word n :: exportLeaves e
def exportsLeaves : List ExportSet → List Leaf
  | [] => []
  | e :: es => exportLeaves e ++ exportsLeaves es
end

/-- The keyword of an infix declaration. -/
def assocWord : Assoc → Str
  | .L => c!"infixl"
  | .R => c!"infixr"
  | .N => c!"infix"

def statementLeaves : Statement → List Leaf
  | .ModuleDeclaration ns e | .PortModuleDeclaration ns e => words ns ++ exportLeaves e
  | .EffectModuleDeclaration ns fs e => words ns ++ (fs.flatMap fun f => [.word f.1, .word f.2]) ++ exportLeaves e
  | .ImportStatement ns a e =>
      words ns ++ (match a with | some n => [.word n] | none => []) ++
        (match e with | some x => exportLeaves x | none => [])
  | .TypeAliasDeclaration t u => tyLeaves t ++ tyLeaves u
  | .TypeDeclaration t us => tyLeaves t ++ tysLeaves us
  | .PortTypeDeclaration n t => .word n :: tyLeaves t
  | .PortDeclaration n as e => .word n :: words as ++ exprLeaves e
  | .Function f => functionLeaves f
  | .InfixDeclaration a p n => [.word (assocWord a), .num p, .word n]
  | .Comment t => [.word t]

/-! ### Weaving -/

theorem Weave.append {ls ms : List Leaf} {c d : Str} (h : Weave ls c) (h' : Weave ms d) :
    Weave (ls ++ ms) (c ++ d) := by
  induction h with
  | nil => exact h'
  | white hx _ ih => exact .white hx ih
  | comment ht _ ih => simpa using Weave.comment ht ih
  | fixed ht _ ih => simpa using Weave.fixed ht ih
  | leaf hl _ ih => simpa using Weave.leaf hl ih
  | short _ ih => simpa using Weave.short ih

local infixl:65 " ⊹ " => Weave.append

theorem wFixed {t : Str} (h : t ∈ fixedTokens := by decide) : Weave [] t := by
  simpa using Weave.fixed h .nil
theorem wWord (t : Str) : Weave [.word t] t := by simpa using Weave.leaf (l := .word t) rfl .nil
theorem wField (t : Str) : Weave [.field t] t := by simpa using Weave.leaf (l := .field t) rfl .nil
theorem wWhites {w : Str} (h : Whites w) : Weave [] w := by
  induction w with
  | nil => exact .nil
  | cons c w ih => exact .white (h c (by simp)) (ih fun x hx => h x (by simp [hx]))
theorem wSpaces {w : Str} (h : SpacesTxt w) : Weave [] w := wWhites fun c hc => .inl (h.2 c hc)
theorem wBlanks {w : Str} (h : BlanksTxt w) : Weave [] w :=
  wWhites fun c hc => (h.2 c hc).elim .inl fun h => .inr (.inl h)
theorem wSpaceNl {w : Str} (h : SpaceNl w) : Weave [] w :=
  wWhites fun c hc => (h.2 c hc).elim .inl fun h => .inr (.inr (.inr h))
theorem wOptSpaceNl {w : Str} (h : OptSpaceNl w) : Weave [] w :=
  wWhites fun c hc => (h c hc).elim .inl fun h => .inr (.inr (.inr h))
theorem wOptSpaces {w : Str} (h : OptSpaces w) : Weave [] w := wWhites fun c hc => .inl (h c hc)
theorem wSp (n : Nat) : Weave [] (sp n) :=
  wWhites fun _ hc => .inl (List.eq_of_mem_replicate hc)
theorem wNl : Weave [] c!"\n" := wWhites (by simp [Whites, White])
theorem wSpace : Weave [] c!" " := wSp 1
theorem wGapText {ls : List Line} (n : Nat) (h : ∀ l ∈ ls, l.ok) : Weave [] (gapText ls ⟨n, none⟩) := by
  induction ls with
  | nil => simpa [gapText, Line.text, commentText] using wSp n
  | cons l ls ih =>
    obtain ⟨k, o⟩ := l
    have ih := ih fun x hx => h x (by simp [hx])
    have hl := h ⟨k, o⟩ (by simp)
    cases o with
    | none => simpa [gapText, Line.text, commentText] using wSp k ⊹ wNl ⊹ ih
    | some t => simpa [gapText, Line.text, commentText] using wSp k ⊹ Weave.comment (hl t rfl) ih
theorem wGap {ind i : Nat} {ir : IR} {g : Str} (h : GapTxt ind ir i g) : Weave [] g := by
  obtain ⟨ls, n, rfl, -, h, -⟩ := h
  exact wGapText n h
theorem wOptGap {ind : Nat} {ir : IR} {g : Str} (h : OptGapTxt ind ir g) : Weave [] g := by
  rcases h with rfl | ⟨i, h⟩
  · exact .nil
  · exact wGap h
theorem wDotted (ns : List Name) : Weave (words ns) (dotted ns) := by
  induction ns with
  | nil => exact .nil
  | cons n ns ih =>
    cases ns with
    | nil => exact wWord n
    | cons m ns => simpa [words, dotted] using wWord n ⊹ wFixed (t := c!".") ⊹ ih
theorem wDots (ns : List Name) : Weave (words ns) (dots ns) := by
  induction ns with
  | nil => exact .nil
  | cons n ns ih => simpa [words, dots] using wFixed (t := c!".") ⊹ wWord n ⊹ ih
theorem wVar {ns : List Name} {c : Str} (h : VarText ns c) : Weave (words ns) c := by
  cases h with
  | lo => exact wWord _
  | up => exact wDotted _
  | op => simpa [words] using wFixed (t := c!"(") ⊹ wWord _ ⊹ wFixed (t := c!")")
  | commas => simpa [words] using wFixed (t := c!"(") ⊹ wWord _ ⊹ wFixed (t := c!")")
theorem wFn {n m : Str} (h : FnName n m) : Weave [.word n] m := by
  cases h with
  | lo => exact wWord _
  | op => simpa using wFixed (t := c!"(") ⊹ wWord _ ⊹ wFixed (t := c!")")

theorem wShort (n : Str) : Weave [.field n, .word n] n := by simpa using Weave.short (n := n) .nil
theorem wSimpFields {fs : List (Name × Expr)} {c : Str} (h : SimpFields fs c) : Weave (fieldsLeaves fs) c := by
  induction h with
  | nil => exact .nil
  | cons _ h1 h2 _ ih =>
    simpa [fieldsLeaves, exprLeaves, words] using
      wFixed (t := c!",") ⊹ wWhites h1 ⊹ wShort _ ⊹ wWhites h2 ⊹ ih
theorem wSimpBody {fs : List (Name × Expr)} {c : Str} (h : SimpBody fs c) : Weave (fieldsLeaves fs) c := by
  cases h with
  | nil => exact .nil
  | cons _ h1 h2 h =>
    simpa [fieldsLeaves, exprLeaves, words] using wWhites h1 ⊹ wShort _ ⊹ wWhites h2 ⊹ wSimpFields h

/-! ### Types -/

def tyCatLeaves : TyCat → List Leaf
  | .atom t | .par t | .ty t | .ann t => tyLeaves t
  | .args ts | .items ts => tysLeaves ts
  | .field f => tyFieldsLeaves [f]
  | .fields fs => tyFieldsLeaves fs

theorem wTy {ind : Nat} {k : TyCat} {c : Str} (h : TySrc ind k c) : Weave (tyCatLeaves k) c := by
  induction h with
  | var => exact wWord _
  | @extRecord _ _ f _ _ _ _ _ _ _ _ _ _ _ h1 _ h2 h3 _ _ h4 ih1 ih2 =>
    obtain ⟨n, t⟩ := f
    simpa [tyCatLeaves, tyLeaves, tyFieldsLeaves] using
      wFixed (t := c!"{") ⊹ wGap h1 ⊹ wWord _ ⊹ wGap h2 ⊹ wFixed (t := c!"|") ⊹ wGap h3 ⊹ ih1 ⊹ ih2 ⊹ wGap h4 ⊹
        wFixed (t := c!"}")
  | record0 h => simpa [tyCatLeaves, tyLeaves, tyFieldsLeaves] using wFixed (t := c!"{") ⊹ wOptGap h ⊹ wFixed (t := c!"}")
  | @record _ f _ _ _ _ _ h1 _ _ h2 ih1 ih2 =>
    obtain ⟨n, t⟩ := f
    simpa [tyCatLeaves, tyLeaves, tyFieldsLeaves] using
      wFixed (t := c!"{") ⊹ wOptGap h1 ⊹ ih1 ⊹ ih2 ⊹ wOptGap h2 ⊹ wFixed (t := c!"}")
  | tuple0 h => simpa [tyCatLeaves, tyLeaves, tysLeaves] using wFixed (t := c!"(") ⊹ wOptGap h ⊹ wFixed (t := c!")")
  | tuple h1 _ _ h2 ih1 ih2 =>
    simpa [tyCatLeaves, tyLeaves, tysLeaves] using
      wFixed (t := c!"(") ⊹ wOptGap h1 ⊹ ih1 ⊹ ih2 ⊹ wOptGap h2 ⊹ wFixed (t := c!")")
  | parens h1 _ h2 h3 _ h4 ih1 ih2 =>
    simpa [tyCatLeaves, tyLeaves] using
      wFixed (t := c!"(") ⊹ wOptGap h1 ⊹ ih1 ⊹ wSpaceNl h2 ⊹ wFixed (t := c!"->") ⊹ wSpaceNl h3 ⊹ ih2 ⊹ wOptGap h4 ⊹
        wFixed (t := c!")")
  | parAtom _ ih => exact ih
  | parConst => simpa [tyCatLeaves, tyLeaves, tysLeaves] using wDotted _
  | tyAtom _ ih => exact ih
  | con _ _ _ ih => simpa [tyCatLeaves, tyLeaves] using wDotted _ ⊹ ih
  | args0 => exact .nil
  | args h _ _ ih1 ih2 => simpa [tyCatLeaves, tysLeaves] using wGap h ⊹ ih1 ⊹ ih2
  | items0 => exact .nil
  | items h1 h2 _ _ ih1 ih2 =>
    simpa [tyCatLeaves, tysLeaves] using wOptGap h1 ⊹ wFixed (t := c!",") ⊹ wOptGap h2 ⊹ ih1 ⊹ ih2
  | field _ h1 h2 _ ih =>
    simpa [tyCatLeaves, tyFieldsLeaves] using wWord _ ⊹ wOptGap h1 ⊹ wFixed (t := c!":") ⊹ wOptGap h2 ⊹ ih
  | fields0 => exact .nil
  | @fields _ f _ _ _ _ _ h1 h2 _ _ ih1 ih2 =>
    obtain ⟨n, t⟩ := f
    simpa [tyCatLeaves, tyFieldsLeaves] using wOptGap h1 ⊹ wFixed (t := c!",") ⊹ wOptGap h2 ⊹ ih1 ⊹ ih2
  | annTy _ ih => exact ih
  | annArrow _ h1 h2 _ ih1 ih2 =>
    simpa [tyCatLeaves, tyLeaves] using ih1 ⊹ wSpaceNl h1 ⊹ wFixed (t := c!"->") ⊹ wSpaceNl h2 ⊹ ih2

/-! ### Expressions -/

def catLeaves : Cat → List Leaf
  | .closed e | .term e | .app e | .expr e | .target e => exprLeaves e
  | .args es | .items es | .comps es | .largs es | .fargs es => exprsLeaves es
  | .field f | .upd f => fieldsLeaves [f]
  | .fields fs | .upds fs => fieldsLeaves fs
  | .entry l => entryLeaves l
  | .entries ls => entriesLeaves ls
  | .defn d => defnLeaves d
  | .fn f => functionLeaves f
  | .branch b => branchesLeaves [b]
  | .branches bs => branchesLeaves bs

theorem leaves_foldl (e : Expr) (es : List Expr) :
    exprLeaves (es.foldl .Application e) = exprLeaves e ++ exprsLeaves es := by
  induction es generalizing e with
  | nil => simp [exprsLeaves]
  | cons x es ih => rw [List.foldl_cons, ih]; simp [exprLeaves, exprsLeaves]

theorem wSrc {st : Prop} {ind j : Nat} {k : Cat} {c : Str} (h : SrcAt st ind j k c) : Weave (catLeaves k) c := by
  induction h with
  | var h => simpa [catLeaves, exprLeaves] using wVar h
  | access h => simpa [catLeaves, exprLeaves] using wVar h ⊹ wDots _
  | accessFn => simpa [catLeaves, exprLeaves] using wFixed (t := c!".") ⊹ wWord _
  | str0 => simpa [catLeaves, exprLeaves] using wFixed (t := c!"\"") ⊹ wWord [] ⊹ wFixed (t := c!"\"")
  | int => exact wWord _
  | float => exact wWord _
  | closed _ ih => exact ih
  | str1 => simpa [catLeaves, exprLeaves] using wFixed (t := c!"\"") ⊹ wWord _ ⊹ wFixed (t := c!"\"")
  | str3 => simpa [catLeaves, exprLeaves] using wFixed (t := c!"\"\"\"") ⊹ wWord _ ⊹ wFixed (t := c!"\"\"\"")
  | @char _ _ w x h =>
    have hc : Weave [.chr x] w := by simpa using Weave.leaf (l := .chr x) h .nil
    simpa [catLeaves, exprLeaves] using wFixed (t := c!"'") ⊹ hc ⊹ wFixed (t := c!"'")
  | parens _ ih => simpa [catLeaves] using wFixed (t := c!"(") ⊹ ih ⊹ wFixed (t := c!")")
  | list0 h => simpa [catLeaves, exprLeaves, exprsLeaves] using wFixed (t := c!"[") ⊹ wOptGap h ⊹ wFixed (t := c!"]")
  | list h1 _ _ h2 ih1 ih2 =>
    simpa [catLeaves, exprLeaves, exprsLeaves] using
      wFixed (t := c!"[") ⊹ wOptGap h1 ⊹ ih1 ⊹ ih2 ⊹ wOptGap h2 ⊹ wFixed (t := c!"]")
  | tuple0 => simpa [catLeaves, exprLeaves, exprsLeaves] using wFixed (t := c!"(") ⊹ wFixed (t := c!")")
  | tuple1 h1 h2 _ _ ih =>
    simpa [catLeaves, exprLeaves, exprsLeaves] using
      wFixed (t := c!"(") ⊹ wWhites h1 ⊹ ih ⊹ wWhites h2 ⊹ wFixed (t := c!")")
  | tuple h1 h2 _ _ _ ih1 ih2 =>
    simpa [catLeaves, exprLeaves, exprsLeaves] using
      wFixed (t := c!"(") ⊹ wWhites h1 ⊹ ih1 ⊹ wWhites h2 ⊹ ih2 ⊹ wFixed (t := c!")")
  | record0 h => simpa [catLeaves, exprLeaves, fieldsLeaves] using wFixed (t := c!"{") ⊹ wOptGap h ⊹ wFixed (t := c!"}")
  | @record _ _ f _ _ _ _ _ h1 _ _ h2 ih1 ih2 =>
    obtain ⟨n, e⟩ := f
    simpa [catLeaves, exprLeaves, fieldsLeaves] using
      wFixed (t := c!"{") ⊹ wOptGap h1 ⊹ ih1 ⊹ ih2 ⊹ wOptGap h2 ⊹ wFixed (t := c!"}")
  | simp h => simpa [catLeaves, exprLeaves] using wFixed (t := c!"{") ⊹ wSimpBody h ⊹ wFixed (t := c!"}")
  | @update _ _ _ f _ _ _ _ _ _ _ _ h1 _ h2 h3 _ _ h4 ih1 ih2 =>
    obtain ⟨n, e⟩ := f
    simpa [catLeaves, exprLeaves, fieldsLeaves] using
      wFixed (t := c!"{") ⊹ wOptGap h1 ⊹ wWord _ ⊹ wOptGap h2 ⊹ wFixed (t := c!"|") ⊹ wWhites h3 ⊹ ih1 ⊹ ih2 ⊹ wGap h4 ⊹
        wFixed (t := c!"}")
  | update0 h1 _ h2 h3 h4 =>
    simpa [catLeaves, exprLeaves, fieldsLeaves] using
      wFixed (t := c!"{") ⊹ wOptGap h1 ⊹ wWord _ ⊹ wOptGap h2 ⊹ wFixed (t := c!"|") ⊹ wWhites h3 ⊹ wGap h4 ⊹
        wFixed (t := c!"}")
  | items0 => exact .nil
  | items h1 h2 _ _ ih1 ih2 =>
    simpa [catLeaves, exprsLeaves] using wOptGap h1 ⊹ wFixed (t := c!",") ⊹ wOptGap h2 ⊹ ih1 ⊹ ih2
  | comps0 => exact .nil
  | comps h1 h2 _ _ ih1 ih2 =>
    simpa [catLeaves, exprsLeaves] using wFixed (t := c!",") ⊹ wWhites h1 ⊹ ih1 ⊹ wWhites h2 ⊹ ih2
  | field _ h1 h2 _ ih =>
    simpa [catLeaves, fieldsLeaves] using wField _ ⊹ wOptGap h1 ⊹ wFixed (t := c!"=") ⊹ wOptGap h2 ⊹ ih
  | fields0 => exact .nil
  | @fields _ _ f _ _ _ _ _ h1 h2 _ _ ih1 ih2 =>
    obtain ⟨n, e⟩ := f
    simpa [catLeaves, fieldsLeaves] using wOptGap h1 ⊹ wFixed (t := c!",") ⊹ wOptGap h2 ⊹ ih1 ⊹ ih2
  | upd _ h1 h2 _ ih =>
    simpa [catLeaves, fieldsLeaves] using wField _ ⊹ wWhites h1 ⊹ wFixed (t := c!"=") ⊹ wWhites h2 ⊹ ih
  | upds0 => exact .nil
  | @upds _ _ f _ _ _ _ _ h1 h2 _ _ ih1 ih2 =>
    obtain ⟨n, e⟩ := f
    simpa [catLeaves, fieldsLeaves] using wOptGap h1 ⊹ wFixed (t := c!",") ⊹ wOptGap h2 ⊹ ih1 ⊹ ih2
  | args0 => exact .nil
  | args h _ _ ih1 ih2 => simpa [catLeaves, exprsLeaves] using wGap h ⊹ ih1 ⊹ ih2
  | app _ _ ih1 ih2 => simpa [catLeaves, leaves_foldl] using ih1 ⊹ ih2
  | eApp _ ih => exact ih
  | binop _ h1 _ h2 _ _ ih1 ih2 =>
    simpa [catLeaves, exprLeaves, words] using ih1 ⊹ wGap h1 ⊹ wWord _ ⊹ wWhites h2 ⊹ ih2
  | let_ h1 _ _ h2 h3 _ ih1 ih2 ih3 =>
    simpa [catLeaves, exprLeaves, entriesLeaves] using
      wFixed (t := c!"let") ⊹ wGap h1 ⊹ ih1 ⊹ ih2 ⊹ wGap h2 ⊹ wFixed (t := c!"in") ⊹ wGap h3 ⊹ ih3
  | @case_ _ _ _ _ _ _ b _ _ _ _ _ _ _ h1 _ h2 h3 _ _ _ ih1 ih2 ih3 =>
    obtain ⟨x, y⟩ := b
    simpa [catLeaves, exprLeaves, branchesLeaves] using
      wFixed (t := c!"case") ⊹ wGap h1 ⊹ ih1 ⊹ wGap h2 ⊹ wFixed (t := c!"of") ⊹ wGap h3 ⊹ ih2 ⊹ ih3
  | if_ h1 _ h2 h3 _ h4 h5 _ ih1 ih2 ih3 =>
    simpa [catLeaves, exprLeaves] using
      wFixed (t := c!"if") ⊹ wGap h1 ⊹ ih1 ⊹ wGap h2 ⊹ wFixed (t := c!"then") ⊹ wGap h3 ⊹ ih2 ⊹ wGap h4 ⊹
        wFixed (t := c!"else") ⊹ wGap h5 ⊹ ih3
  | lambda _ _ h1 h2 _ ih1 ih2 ih3 =>
    simpa [catLeaves, exprLeaves, exprsLeaves] using
      wFixed (t := c!"\\") ⊹ ih1 ⊹ ih2 ⊹ wGap h1 ⊹ wFixed (t := c!"->") ⊹ wGap h2 ⊹ ih3
  | largs0 => exact .nil
  | largs h _ _ ih1 ih2 => simpa [catLeaves, exprsLeaves] using wBlanks h ⊹ ih1 ⊹ ih2
  | tVar h => simpa [catLeaves, exprLeaves] using wVar h
  | tList0 h => simpa [catLeaves, exprLeaves, exprsLeaves] using wFixed (t := c!"[") ⊹ wOptGap h ⊹ wFixed (t := c!"]")
  | tList h1 _ _ h2 ih1 ih2 =>
    simpa [catLeaves, exprLeaves, exprsLeaves] using
      wFixed (t := c!"[") ⊹ wOptGap h1 ⊹ ih1 ⊹ ih2 ⊹ wOptGap h2 ⊹ wFixed (t := c!"]")
  | tTuple0 => simpa [catLeaves, exprLeaves, exprsLeaves] using wFixed (t := c!"(") ⊹ wFixed (t := c!")")
  | tTuple h1 h2 _ _ ih1 ih2 =>
    simpa [catLeaves, exprLeaves, exprsLeaves] using
      wFixed (t := c!"(") ⊹ wWhites h1 ⊹ ih1 ⊹ wWhites h2 ⊹ ih2 ⊹ wFixed (t := c!")")
  | tRecord h => simpa [catLeaves, exprLeaves] using wFixed (t := c!"{") ⊹ wSimpBody h ⊹ wFixed (t := c!"}")
  | binding _ h1 h2 _ ih1 ih2 =>
    simpa [catLeaves, entryLeaves] using ih1 ⊹ wGap h1 ⊹ wFixed (t := c!"=") ⊹ wGap h2 ⊹ ih2
  | function _ _ ih => simpa [catLeaves, entryLeaves] using ih
  | entries0 => exact .nil
  | entries h _ _ _ ih1 ih2 => simpa [catLeaves, entriesLeaves] using wGap h ⊹ ih1 ⊹ ih2
  | fargs0 => exact .nil
  | fargs h _ _ ih1 ih2 => simpa [catLeaves, exprsLeaves] using wSpaces h ⊹ ih1 ⊹ ih2
  | defn h _ h1 h2 _ ih1 ih2 =>
    simpa [catLeaves, defnLeaves] using wFn h ⊹ ih1 ⊹ wSpaces h1 ⊹ wFixed (t := c!"=") ⊹ wGap h2 ⊹ ih2
  | fn _ ih => simpa [catLeaves, functionLeaves, signatureLeaves] using ih
  | fnSig h h1 h2 ht _ _ ih =>
    simpa [catLeaves, functionLeaves, signatureLeaves, tyCatLeaves] using
      wFn h ⊹ wSpaces h1 ⊹ wFixed (t := c!":") ⊹ wGap h2 ⊹ wTy ht ⊹ wNl ⊹ wSp _ ⊹ ih
  | branch _ h1 h2 _ _ ih1 ih2 =>
    simpa [catLeaves, branchesLeaves] using ih1 ⊹ wGap h1 ⊹ wFixed (t := c!"->") ⊹ wGap h2 ⊹ ih2
  | branches0 => exact .nil
  | @branches _ _ _ b _ _ _ _ h _ _ _ ih1 ih2 =>
    obtain ⟨x, y⟩ := b
    simpa [catLeaves, branchesLeaves] using wGap h ⊹ ih1 ⊹ ih2

/-! ### Statements -/

theorem wCommaNames (ns : List Name) : Weave (exportsLeaves (ns.map .FunctionExport)) (commaNames ns) := by
  induction ns with
  | nil => exact .nil
  | cons n ns ih =>
    cases ns with
    | nil => simpa [exportsLeaves, exportLeaves, commaNames] using wWord n
    | cons m ns =>
      simpa [exportsLeaves, exportLeaves, commaNames] using wWord n ⊹ wFixed (t := c!",") ⊹ wSpace ⊹ ih
theorem wExport {e : ExportSet} {c : Str} (h : ExportText e c) : Weave (exportLeaves e) c := by
  cases h with
  | function h => simpa [exportLeaves] using wFn h
  | type_ _ h =>
    cases h with
    | none => simpa [exportLeaves] using wWord _
    | all => simpa [exportLeaves] using wWord _ ⊹ wFixed (t := c!"(") ⊹ wWord c!".." ⊹ wFixed (t := c!")")
    | some => simpa [exportLeaves] using wWord _ ⊹ wFixed (t := c!"(") ⊹ wCommaNames _ ⊹ wFixed (t := c!")")
theorem wExportItems {es : List ExportSet} {c : Str} (h : ExportItems es c) : Weave (exportsLeaves es) c := by
  induction h with
  | nil => exact .nil
  | cons h1 h2 h _ ih =>
    simpa [exportsLeaves] using wOptSpaceNl h1 ⊹ wFixed (t := c!",") ⊹ wOptSpaceNl h2 ⊹ wExport h ⊹ ih
theorem wExports {e : ExportSet} {c : Str} (h : ExportsText e c) : Weave (exportLeaves e) c := by
  cases h with
  | all h1 h2 =>
    simpa [exportLeaves] using wFixed (t := c!"(") ⊹ wOptGap h1 ⊹ wWord c!".." ⊹ wOptGap h2 ⊹ wFixed (t := c!")")
  | some h1 h h' h2 =>
    simpa [exportLeaves, exportsLeaves] using
      wFixed (t := c!"(") ⊹ wOptGap h1 ⊹ wExport h ⊹ wExportItems h' ⊹ wOptGap h2 ⊹ wFixed (t := c!")")
theorem wEffect {f : Name × Name} {c : Str} (h : EffectText f c) : Weave [.word f.1, .word f.2] c := by
  cases h with
  | mk _ h1 h2 => simpa using wWord _ ⊹ wOptSpaces h1 ⊹ wFixed (t := c!"=") ⊹ wOptSpaces h2 ⊹ wWord _
theorem wEffectItems {fs : List (Name × Name)} {c : Str} (h : EffectItems fs c) :
    Weave (fs.flatMap fun f => [.word f.1, .word f.2]) c := by
  induction h with
  | nil => exact .nil
  | cons h _ ih => simpa using wFixed (t := c!",") ⊹ wSpace ⊹ wEffect h ⊹ ih
theorem wEffects {fs : List (Name × Name)} {c : Str} (h : EffectsText fs c) :
    Weave (fs.flatMap fun f => [.word f.1, .word f.2]) c := by
  cases h with
  | nil => exact .nil
  | cons h h' => simpa using wEffect h ⊹ wEffectItems h'
theorem wPortArgs {ns : List Name} {c : Str} (h : PortArgs ns c) : Weave (words ns) c := by
  induction h with
  | nil => exact .nil
  | cons h _ _ ih => simpa [words] using wSpaces h ⊹ wWord _ ⊹ ih
theorem wConstructors {ind : Nat} {us : List Ty} {c : Str} (h : ConstructorItems ind us c) :
    Weave (tysLeaves us) c := by
  induction h with
  | nil => exact .nil
  | cons h1 h2 h _ ih =>
    simpa [tysLeaves, tyCatLeaves] using wGap h1 ⊹ wFixed (t := c!"|") ⊹ wSpaces h2 ⊹ wTy h ⊹ ih

theorem wStmt {st : Prop} {x : Statement} {c : Str} (h : StmtSrc st x c) : Weave (statementLeaves x) c := by
  cases h with
  | portModule h1 h2 _ _ h3 h4 h =>
    simpa [statementLeaves] using wFixed (t := c!"port") ⊹ wGap h1 ⊹ wFixed (t := c!"module") ⊹ wGap h2 ⊹ wDotted _ ⊹
      wGap h3 ⊹ wFixed (t := c!"exposing") ⊹ wGap h4 ⊹ wExports h
  | effectModule h1 h2 _ _ h3 h4 hf h5 h6 h =>
    simpa [statementLeaves] using wFixed (t := c!"effect") ⊹ wGap h1 ⊹ wFixed (t := c!"module") ⊹ wGap h2 ⊹ wDotted _ ⊹
      wGap h3 ⊹ wFixed (t := c!"where") ⊹ wGap h4 ⊹ wFixed (t := c!"{") ⊹ wEffects hf ⊹ wFixed (t := c!"}") ⊹ wGap h5 ⊹
      wFixed (t := c!"exposing") ⊹ wGap h6 ⊹ wExports h
  | module_ h2 _ _ h3 h4 h =>
    simpa [statementLeaves] using wFixed (t := c!"module") ⊹ wGap h2 ⊹ wDotted _ ⊹
      wGap h3 ⊹ wFixed (t := c!"exposing") ⊹ wGap h4 ⊹ wExports h
  | @import_ ns _ _ _ _ _ h1 _ _ h2 h3 =>
    have h0 := wFixed (t := c!"import") ⊹ wSpaces h1 ⊹ wDotted ns
    cases h2 with
    | none =>
      cases h3 with
      | none => simpa [statementLeaves] using h0
      | some k1 k2 k => simpa [statementLeaves] using h0 ⊹ wSpaces k1 ⊹ wFixed (t := c!"exposing") ⊹ wSpaces k2 ⊹ wExports k
    | @some m _ _ k3 k4 =>
      have h0 := h0 ⊹ wSpaces k3 ⊹ wFixed (t := c!"as") ⊹ wSpaces k4 ⊹ wWord m
      cases h3 with
      | none => simpa [statementLeaves] using h0
      | some k1 k2 k => simpa [statementLeaves] using h0 ⊹ wSpaces k1 ⊹ wFixed (t := c!"exposing") ⊹ wSpaces k2 ⊹ wExports k
  | typeAlias h1 h2 h h3 h4 h' =>
    simpa [statementLeaves, tyCatLeaves] using wFixed (t := c!"type") ⊹ wSpaces h1 ⊹ wFixed (t := c!"alias") ⊹ wSpaces h2 ⊹
      wTy h ⊹ wSpaces h3 ⊹ wFixed (t := c!"=") ⊹ wGap h4 ⊹ wTy h'
  | type_ h1 h h2 h3 h' hs =>
    simpa [statementLeaves, tyCatLeaves, tysLeaves] using wFixed (t := c!"type") ⊹ wSpaces h1 ⊹
      wTy h ⊹ wGap h2 ⊹ wFixed (t := c!"=") ⊹ wGap h3 ⊹ wTy h' ⊹ wConstructors hs
  | portType h1 _ h2 h3 h =>
    simpa [statementLeaves, tyCatLeaves] using wFixed (t := c!"port") ⊹ wSpaces h1 ⊹ wWord _ ⊹ wSpaces h2 ⊹
      wFixed (t := c!":") ⊹ wGap h3 ⊹ wTy h
  | port h1 _ ha h2 h3 h =>
    simpa [statementLeaves, catLeaves] using wFixed (t := c!"port") ⊹ wSpaces h1 ⊹ wWord _ ⊹ wPortArgs ha ⊹ wSpaces h2 ⊹
      wFixed (t := c!"=") ⊹ wGap h3 ⊹ wSrc h
  | function h => simpa [statementLeaves, catLeaves] using wSrc h
  | @infix_ a n w1 d w2 h1 hd _ h2 =>
    have hn : Weave [.num (decimal d)] d := by simpa using Weave.leaf (l := .num (decimal d)) ⟨hd, rfl⟩ .nil
    have ha : assocText a = assocWord a := by cases a <;> rfl
    simpa [statementLeaves, ha] using wWord (assocWord a) ⊹ wSpaces h1 ⊹ hn ⊹ wSpaces h2 ⊹ wWord _
  | block => simpa [statementLeaves] using wFixed (t := c!"{-") ⊹ wWord _ ⊹ wFixed (t := c!"-}")

theorem wStmts {st : Prop} {b : Bool} {xs : List Statement} {c : Str} (h : Stmts st b xs c) :
    Weave (xs.flatMap statementLeaves) c := by
  induction h with
  | last h => exact wWhites h
  | sep h _ _ _ ih => simpa using wWhites h ⊹ ih
  | line _ _ _ ih => simpa [statementLeaves] using wFixed (t := c!"--") ⊹ wWord _ ⊹ ih
  | stmt h _ ih => simpa using wStmt h ⊹ ih

/-! ### C21 -/

/-- C21: what was read is the leaves of the tree, in order, and fixed tokens, white space and comments. -/
theorem C21_tokens_expression {ind : Nat} {s r : Str} {e : Expr} (h : expression ind s = .ok e r) :
    ∃ c, s = c ++ r ∧ Weave (exprLeaves e) c := by
  obtain ⟨c, rfl, hc⟩ := eSound_expression h
  exact ⟨c, rfl, wSrc hc⟩
@[inherit_doc C21_tokens_expression]
theorem C21_tokens_type {ind : Nat} {s r : Str} {t : Ty} (h : typeAnnotation ind s = .ok t r) :
    ∃ c, s = c ++ r ∧ Weave (tyLeaves t) c := by
  obtain ⟨c, rfl, hc⟩ := typeAnnotation_sound h
  exact ⟨c, rfl, wTy hc⟩
example := C21_tokens_type (ind := 0) (s := c!"(a -> List b) -> { x : Int } -> c\n=") rfl
@[inherit_doc C21_tokens_expression]
theorem C21_tokens_statement {s r : Str} {x : Statement} (h : statement s = .ok x r) :
    ∃ c, s = c ++ r ∧ Weave (statementLeaves x) c := by
  rcases statement_sound h with ⟨t, rfl, rfl, -⟩ | ⟨c, rfl, hc⟩
  · exact ⟨c!"--" ++ t, by simp, by simpa [statementLeaves] using wFixed (t := c!"--") ⊹ wWord t⟩
  · exact ⟨c, rfl, wStmt hc⟩
example := C21_tokens_statement (s := c!"import A.B as C exposing (f, T(..), (+))\n\nx = 1") rfl
/-- C21: an accepted file is the leaves of its statements, in order, and fixed tokens, white space and comments. -/
theorem C21_tokens_file {s r : Str} {xs : List Statement} (h : file s = .ok xs r) :
    Weave (xs.flatMap statementLeaves) s := by
  obtain ⟨-, w, d, rfl, hw, hd⟩ := file_sound h
  simpa using wWhites hw ⊹ wStmts hd
example := C21_tokens_file (s := c!"import A as B exposing (f, T(C, D))\n\n-- c\nf : Int -> a\nf x =\n  g x.y \"s\"\n") rfl

/-! ### What this says -/

/-- The first leaf stands somewhere in the text, and the other leaves after it. -/
theorem weave_first {l : Leaf} {ls : List Leaf} {c : Str} (h : Weave (l :: ls) c) :
    ∃ a t d, c = a ++ t ++ d ∧ l.text t ∧ (Weave ls d ∨ ∃ n, l = .field n ∧ Weave ls (n ++ d)) := by
  generalize hk : l :: ls = k at h
  induction h with
  | nil => cases hk
  | @white x _ _ _ _ ih =>
    obtain ⟨a, t, d, rfl, h1, h2⟩ := ih hk
    exact ⟨x :: a, t, d, rfl, h1, h2⟩
  | @comment u _ _ _ _ ih =>
    obtain ⟨a, t, d, rfl, h1, h2⟩ := ih hk
    exact ⟨c!"--" ++ u ++ c!"\n" ++ a, t, d, by simp, h1, h2⟩
  | @fixed u _ _ _ _ ih =>
    obtain ⟨a, t, d, rfl, h1, h2⟩ := ih hk
    exact ⟨u ++ a, t, d, by simp, h1, h2⟩
  | @leaf _ u _ d h1 h2 =>
    cases hk
    exact ⟨[], u, d, rfl, h1, .inl h2⟩
  | @short n _ d h2 =>
    cases hk
    exact ⟨[], n, d, rfl, rfl, .inr ⟨n, rfl, by simpa using Weave.leaf (l := .word n) rfl h2⟩⟩

/-- Every leaf has a place in the text. -/
theorem weave_mem {ls : List Leaf} {c : Str} (h : Weave ls c) : ∀ l ∈ ls, ∃ a t b, c = a ++ t ++ b ∧ l.text t := by
  induction ls generalizing c with
  | nil => simp
  | cons x ls ih =>
    obtain ⟨a, t, d, rfl, h1, h2⟩ := weave_first h
    intro l hm
    rcases List.mem_cons.1 hm with rfl | hl
    · exact ⟨a, t, d, rfl, h1⟩
    · rcases h2 with h2 | ⟨n, rfl, h2⟩
      · obtain ⟨a', t', d', rfl, h3⟩ := ih h2 l hl
        exact ⟨a ++ t ++ a', t', d', by simp, h3⟩
      · obtain ⟨a', t', d', h4, h3⟩ := ih h2 l hl
        cases (h1 : t = n)
        exact ⟨a ++ a', t', d', by rw [List.append_assoc, h4]; simp, h3⟩

/-- C21: every name, literal and comment of the tree of a file stands in the file as it is. -/
theorem C21_tokens_occur {s r : Str} {xs : List Statement} (h : file s = .ok xs r) {x : Statement} (hx : x ∈ xs)
    {w : Str} (hw : .word w ∈ statementLeaves x) : ∃ a b, s = a ++ w ++ b := by
  obtain ⟨a, t, b, rfl, rfl⟩ := weave_mem (C21_tokens_file h) (.word w) (List.mem_flatMap.2 ⟨x, hx, hw⟩)
  exact ⟨a, b, rfl⟩
example := C21_tokens_occur (s := c!"import A.B\nx = f y") rfl (x := .ImportStatement [c!"A", c!"B"] none none) (.head _)
  (w := c!"B") (by simp [statementLeaves, words])

/-- Every character that is not in a comment is white, in a fixed token or in a leaf. -/
theorem weave_char {ls : List Leaf} {c : Str} (h : Weave ls c) (hc : '-' ∉ c) :
    ∀ x ∈ c, White x ∨ (∃ t ∈ fixedTokens, x ∈ t) ∨ ∃ l ∈ ls, ∃ t, l.text t ∧ x ∈ t := by
  induction h with
  | nil => simp
  | white hx _ ih =>
    intro y hy
    rcases List.mem_cons.1 hy with rfl | hy
    · exact .inl hx
    · exact ih (fun h => hc (by simp [h])) y hy
  | comment => simp at hc
  | @fixed t _ _ ht _ ih =>
    intro y hy
    rcases List.mem_append.1 hy with hy | hy
    · exact .inr (.inl ⟨t, ht, hy⟩)
    · exact ih (fun h => hc (by simp [h])) y hy
  | @leaf l t _ _ hl _ ih =>
    intro y hy
    rcases List.mem_append.1 hy with hy | hy
    · exact .inr (.inr ⟨l, by simp, t, hl, hy⟩)
    · rcases ih (fun h => hc (by simp [h])) y hy with h | h | ⟨m, hm, h⟩
      · exact .inl h
      · exact .inr (.inl h)
      · exact .inr (.inr ⟨m, by simp [hm], h⟩)
  | @short n _ _ _ ih =>
    intro y hy
    rcases List.mem_append.1 hy with hy | hy
    · exact .inr (.inr ⟨.word n, by simp, n, rfl, hy⟩)
    · rcases ih (fun h => hc (by simp [h])) y hy with h | h | ⟨m, hm, h⟩
      · exact .inl h
      · exact .inr (.inl h)
      · exact .inr (.inr ⟨m, by simp [hm], h⟩)

/-- C21: nothing is dropped: in a file without comments and minus signs, a character that is not white and occurs in
no fixed token (such as a digit, an upper-case letter, `b` or `+`) is a character of a leaf. -/
theorem C21_tokens_kept {s r : Str} {xs : List Statement} (h : file s = .ok xs r) (hs : '-' ∉ s) {x : Char} (hx : x ∈ s)
    (hw : ¬ White x) (hf : ∀ t ∈ fixedTokens, x ∉ t) :
    ∃ y ∈ xs, ∃ l ∈ statementLeaves y, ∃ t, l.text t ∧ x ∈ t := by
  rcases weave_char (C21_tokens_file h) hs x hx with h | ⟨t, ht, h⟩ | ⟨l, hl, h⟩
  · exact absurd h hw
  · exact absurd h (hf t ht)
  · obtain ⟨y, hy, hl⟩ := List.mem_flatMap.1 hl
    exact ⟨y, hy, l, hl, h⟩

/-! ### Examples -/

/-- `f (x.a) -- c⏎ { y }` -/
example : expression 0 c!"f (x.a) -- c\n { y }" = .ok (.Application (.Application (.Variable [c!"f"])
    (.Access (.Variable [c!"x"]) [c!"a"])) (.Record [(c!"y", .Variable [c!"y"])])) [] := rfl
example : exprLeaves (.Application (.Application (.Variable [c!"f"])
    (.Access (.Variable [c!"x"]) [c!"a"])) (.Record [(c!"y", .Variable [c!"y"])])) =
    [.word c!"f", .word c!"x", .word c!"a", .field c!"y", .word c!"y"] := rfl
example : Weave [.word c!"f", .word c!"x", .word c!"a", .field c!"y", .word c!"y"] c!"f (x.a) -- c\n { y }" := by
  obtain ⟨c, h, h'⟩ := C21_tokens_expression (ind := 0) (s := c!"f (x.a) -- c\n { y }") (r := [])
    (e := .Application (.Application (.Variable [c!"f"])
      (.Access (.Variable [c!"x"]) [c!"a"])) (.Record [(c!"y", .Variable [c!"y"])])) rfl
  rw [List.append_nil] at h
  exact h ▸ h'
example : ∃ y ∈ [Statement.Function (.mk none (.mk c!"x" [] (.Integer c!"7")))], ∃ l ∈ statementLeaves y,
    ∃ t, l.text t ∧ '7' ∈ t :=
  C21_tokens_kept (s := c!"x =\n (7)") (r := []) rfl (by decide) (by decide) (by decide) (by decide)
/-- The leaves of a type, a statement and a file. -/
example : ∃ t, typeAnnotation 0 c!"A.B x -> { y : C }" = .ok t [] ∧
    tyLeaves t = [.word c!"A", .word c!"B", .word c!"x", .word c!"y", .word c!"C"] := ⟨_, rfl, rfl⟩
example : ∃ x, statement c!"infixl 07 +" = .ok x [] ∧
    statementLeaves x = [.word c!"infixl", .num 7, .word c!"+"] := ⟨_, rfl, rfl⟩
example : ∃ xs, file c!"import A as B exposing (T(..), f)\n--c\nx = 'y'\n" = .ok xs [] ∧
    xs.flatMap statementLeaves = [.word c!"A", .word c!"B", .word c!"T", .word c!"..", .word c!"f", .word c!"c",
      .word c!"x", .chr 'y'] := ⟨_, rfl, rfl⟩

/-- The leaves of a tree with a part left out do not fit the text. -/
example : ¬ Weave [.word c!"a"] c!"a b" := by
  intro h
  rcases weave_char h (by decide) 'b' (by decide) with h | h | ⟨l, hl, t, h, h'⟩
  · exact absurd h (by decide)
  · exact absurd h (by decide)
  · cases List.mem_singleton.1 hl
    cases (h : t = _)
    exact absurd h' (by decide)
/-- Neither do those of a tree with a part too many. -/
example : ¬ Weave [.word c!"a", .word c!"b", .word c!"c"] c!"a b" := by
  intro h
  obtain ⟨a, t, b, h, h'⟩ := weave_mem h (.word c!"c") (by simp)
  have : 'c' ∈ c!"a b" := by rw [h, (h' : t = _)]; simp
  exact absurd this (by decide)
/-- Nor do those of a tree with its parts in another order. -/
example : ¬ Weave [.word c!"b", .word c!"a"] c!"a b" := by
  intro h
  obtain ⟨a, t, d, h, rfl, h2 | ⟨_, h2, -⟩⟩ := weave_first h
  · obtain ⟨a', t', d', rfl, rfl, -⟩ := weave_first h2
    match a, h with
    | [], h => simp at h
    | [_], h => simp at h
    | [_, _], h => simp at h
    | _ :: _ :: _ :: _, h => simp at h
  · cases h2

end ElmParser
