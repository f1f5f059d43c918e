import Verif.Spec.Flat

/-! Where the parts of a tree stand in the text: every part on a piece of the text of its own, the parts of a part inside
its piece, next to each other and in order.  Independent of the parser. -/
namespace ElmParser.Spec

/-- A part of a tree that is written by itself. -/
inductive Node where
  | expr (e : Expr)
  /-- the left side of a binding -/
  | target (e : Expr)
  | type_ (t : Ty)

/-- The parts of a function, in the order in which they are written: signature, arguments, body. -/
def functionParts : Function → List Node
  | .mk sg (.mk _ as e) => (sg.map fun g => Node.type_ g.type_).toList ++ (as.map .expr ++ [.expr e])

/-- The parts of an entry of a `let`. -/
def entryParts : LetEntry → List Node
  | .LetFunction f => functionParts f
  | .LetBinding t e => [.target t, .expr e]

/-- The parts of an expression, in the order in which they are written. -/
def exprParts : Expr → List Node
  | .Character _ | .String _ | .Integer _ | .Float _ | .Variable _ | .AccessFunction _ => []
  | .List es | .Tuple es => es.map .expr
  | .Access e _ => [.expr e]
  | .Record fs | .RecordUpdate _ fs => fs.map fun f => .expr f.2
  | .If a b c => [.expr a, .expr b, .expr c]
  | .Let ls e => ls.flatMap entryParts ++ [.expr e]
  | .Case e bs => .expr e :: bs.flatMap fun b => [.expr b.1, .expr b.2]
  | .Lambda as e => as.map .expr ++ [.expr e]
  | .Application f x => [.expr f, .expr x]
  | .BinOp _ a b => [.expr a, .expr b]

/-- The parts of a type, in the order in which they are written. -/
def typeParts : Ty → List Node
  | .TypeConstructor _ ts | .TypeTuple ts => ts.map .type_
  | .TypeVariable _ => []
  | .TypeRecordConstructor t fs => .type_ t :: fs.map fun f => .type_ f.2
  | .TypeRecord fs => fs.map fun f => .type_ f.2
  | .TypeApplication t u => [.type_ t, .type_ u]

/-- The parts of a part. -/
def nodeParts : Node → List Node
  | .expr e | .target e => exprParts e
  | .type_ t => typeParts t

/-- The parts of a declaration, in the order in which they are written. -/
def statementParts : Statement → List Node
  | .Function f => functionParts f
  | .PortDeclaration _ _ e => [.expr e]
  | .PortTypeDeclaration _ t => [.type_ t]
  | .TypeAliasDeclaration t u => [.type_ t, .type_ u]
  | .TypeDeclaration t us => .type_ t :: us.map .type_
  | _ => []

mutual
/-- The part stands on the piece `c`: its own parts stand in it, and part and piece are related by `P`; so are all the
parts in it and their pieces. -/
inductive Placed (P : Node → Str → Prop) : Node → Str → Prop
  | mk {n c} : P n c → Row P (nodeParts n) c → Placed P n c
/-- In the text `c` the parts `ns` stand one after the other, on pieces that do not overlap. -/
inductive Row (P : Node → Str → Prop) : List Node → Str → Prop
  | nil {c} : Row P [] c
  | cons {n ns a c d} : Placed P n c → Row P ns d → Row P (n :: ns) (a ++ c ++ d)
end

/-- The declarations stand in the text one after the other, and the parts of each in its own piece. -/
inductive FileRow (P : Node → Str → Prop) : List Statement → Str → Prop
  | nil {c} : FileRow P [] c
  | cons {x xs a c d} : Row P (statementParts x) c → FileRow P xs d → FileRow P (x :: xs) (a ++ c ++ d)

/-- `n` is one of the parts, or a part of one of them, and so on. -/
inductive Within (n : Node) : List Node → Prop
  | here {ns} : n ∈ ns → Within n ns
  | deeper {m ns} : m ∈ ns → Within n (nodeParts m) → Within n ns

end ElmParser.Spec
