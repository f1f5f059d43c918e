import Verif.Model.Binaries

/-! What the two binaries write to their standard output: Rust's `{:#?}` rendering of the derived `Debug`
instances of the syntax tree, and the text of the messages of `Verif.Model.Binaries`.

`std::fmt` is an external library.  Its details have changed between versions of Rust; the details
that differ are the parameters `Style`, and every theorem holds for all of them. -/
namespace ElmParser

/-- What depends on the version of Rust and of Unicode. -/
structure Style where
  /-- is there a comma after the last field?  (in newer versions) -/
  comma : Bool
  /-- is NUL written `\0`?  (in newer versions) -/
  nul : Bool
  /-- is the other quote escaped too?  (in older versions) -/
  quotes : Bool
  /-- the characters that are not printable or extend a grapheme -/
  unicode : Char → Bool

/-- Digit `d` in base 16 (or less), in lower case. -/
def digitChar (d : Nat) : Char := if d < 10 then Char.ofNat (48 + d) else Char.ofNat (87 + d)

/-- The digits of `n` in base `b`, with at most `fuel` of them. -/
def digitsIn (b : Nat) : Nat → Nat → Str
  | 0, _ => []
  | fuel + 1, n => if n < b then [digitChar n] else digitsIn b fuel (n / b) ++ [digitChar (n % b)]

/-- `Display for u64` (base 10) and `LowerHex` (base 16). -/
def natText (b n : Nat) : Str := digitsIn b (n + 1) n

/-- `Debug for i64`. -/
def intText : Int → Str
  | .ofNat n => natText 10 n
  | .negSucc n => '-' :: natText 10 (n + 1)

/-- `char::escape_debug` inside a literal delimited by `quote`. -/
def escape (st : Style) (quote c : Char) : Str :=
  if c = '\t' then c!"\\t"
  else if c = '\r' then c!"\\r"
  else if c = '\n' then c!"\\n"
  else if c = '\\' then c!"\\\\"
  else if c = quote then ['\\', c]
  else if st.quotes ∧ (c = '"' ∨ c = '\'') then ['\\', c]
  else if st.nul ∧ c = '\x00' then c!"\\0"
  else if st.unicode c then c!"\\u{" ++ natText 16 c.toNat ++ c!"}"
  else [c]

/-- `Debug for str`. -/
def strText (st : Style) (s : Str) : Str := '"' :: s.flatMap (escape st '"') ++ ['"']

/-- `Debug for char`. -/
def charText (st : Style) (c : Char) : Str := '\'' :: escape st '\'' c ++ ['\'']

/-- The calls a derived `Debug` instance makes. -/
inductive Dbg where
  /-- a `String` -/
  | str (s : Str)
  /-- a `char` -/
  | chr (c : Char)
  /-- an `i64` -/
  | int (n : Int)
  /-- `f.debug_tuple(name)` with its fields; a Rust tuple has the empty name, a constructor without
  fields has no fields -/
  | tuple (name : Str) (fields : List Dbg)
  /-- `f.debug_struct(name)` with its fields -/
  | struct (name : Str) (fields : List (Str × Dbg))
  /-- `f.debug_list()` with its entries -/
  | list (items : List Dbg)

/-- A new line at nesting depth `d`: `PadAdapter` indents each level by four spaces. -/
def line (d : Nat) : Str := '\n' :: List.replicate (4 * d) ' '

/-- The comma after an entry: always between two entries, after the last one depending on the version. -/
def commaAfter (st : Style) (last : Bool) : Str := if last ∧ st.comma = false then [] else [',']

mutual
/-- `{:#?}` at nesting depth `d`. -/
def render (st : Style) : Nat → Dbg → Str
  | _, .str s => strText st s
  | _, .chr c => charText st c
  | _, .int n => intText n
  | d, .tuple name fs => if fs.isEmpty then name else name ++ '(' :: renderItems st (d + 1) fs ++ line d ++ [')']
  | d, .struct name fs => name ++ c!" {" ++ renderFields st (d + 1) fs ++ line d ++ ['}']
  | d, .list xs => if xs.isEmpty then c!"[]" else '[' :: renderItems st (d + 1) xs ++ line d ++ [']']
/-- The entries of a tuple or of a list. -/
def renderItems (st : Style) : Nat → List Dbg → Str
  | _, [] => []
  | d, x :: xs => line d ++ render st d x ++ commaAfter st xs.isEmpty ++ renderItems st d xs
/-- The fields of a struct. -/
def renderFields (st : Style) : Nat → List (Str × Dbg) → Str
  | _, [] => []
  | d, (n, x) :: xs => line d ++ n ++ c!": " ++ render st d x ++ commaAfter st xs.isEmpty ++ renderFields st d xs
end

/-! ### The derived instances -/

/-- `Debug for Vec<String>`. -/
def dbgNames (ns : List Name) : Dbg := .list (ns.map .str)

/-- `Debug for Option<T>`. -/
def dbgOption {α : Type} (f : α → Dbg) : Option α → Dbg
  | none => .tuple c!"None" []
  | some x => .tuple c!"Some" [f x]

/-- src/ast/binop.rs:1-6. -/
def dbgAssoc : Assoc → Dbg
  | .N => .tuple c!"N" []
  | .L => .tuple c!"L" []
  | .R => .tuple c!"R" []

mutual
/-- src/ast/type_/core.rs:3-11. -/
def dbgTy : Ty → Dbg
  | .TypeConstructor n args => .tuple c!"TypeConstructor" [dbgNames n, .list (dbgTys args)]
  | .TypeVariable n => .tuple c!"TypeVariable" [.str n]
  | .TypeRecordConstructor b fs => .tuple c!"TypeRecordConstructor" [dbgTy b, .list (dbgTyFields fs)]
  | .TypeRecord fs => .tuple c!"TypeRecord" [.list (dbgTyFields fs)]
  | .TypeTuple ts => .tuple c!"TypeTuple" [.list (dbgTys ts)]
  | .TypeApplication a b => .tuple c!"TypeApplication" [dbgTy a, dbgTy b]
@[inherit_doc dbgTy]
def dbgTys : List Ty → List Dbg
  | [] => []
  | t :: ts => dbgTy t :: dbgTys ts
@[inherit_doc dbgTy]
def dbgTyFields : List (Name × Ty) → List Dbg
  | [] => []
  | (n, t) :: fs => .tuple [] [.str n, dbgTy t] :: dbgTyFields fs
end

/-- src/ast/expression/core.rs:4-8. -/
def dbgSignature : FunctionSignature → Dbg
  | ⟨n, t⟩ => .struct c!"FunctionSignature" [(c!"name", .str n), (c!"type_", dbgTy t)]

mutual
/-- src/ast/expression/core.rs:29-48. -/
def dbgExpr : Expr → Dbg
  | .Character c => .tuple c!"Character" [.chr c]
  | .String s => .tuple c!"String" [.str s]
  | .Integer s => .tuple c!"Integer" [.str s]
  | .Float s => .tuple c!"Float" [.str s]
  | .Variable ns => .tuple c!"Variable" [dbgNames ns]
  | .List es => .tuple c!"List" [.list (dbgExprs es)]
  | .Tuple es => .tuple c!"Tuple" [.list (dbgExprs es)]
  | .Access e ns => .tuple c!"Access" [dbgExpr e, dbgNames ns]
  | .AccessFunction n => .tuple c!"AccessFunction" [.str n]
  | .Record fs => .tuple c!"Record" [.list (dbgFields fs)]
  | .RecordUpdate n fs => .tuple c!"RecordUpdate" [.str n, .list (dbgFields fs)]
  | .If a b c => .tuple c!"If" [dbgExpr a, dbgExpr b, dbgExpr c]
  | .Let es b => .tuple c!"Let" [.list (dbgEntries es), dbgExpr b]
  | .Case e bs => .tuple c!"Case" [dbgExpr e, .list (dbgBranches bs)]
  | .Lambda as b => .tuple c!"Lambda" [.list (dbgExprs as), dbgExpr b]
  | .Application f x => .tuple c!"Application" [dbgExpr f, dbgExpr x]
  | .BinOp o l r => .tuple c!"BinOp" [dbgExpr o, dbgExpr l, dbgExpr r]
@[inherit_doc dbgExpr]
def dbgExprs : List Expr → List Dbg
  | [] => []
  | e :: es => dbgExpr e :: dbgExprs es
@[inherit_doc dbgExpr]
def dbgFields : List (Name × Expr) → List Dbg
  | [] => []
  | (n, e) :: fs => .tuple [] [.str n, dbgExpr e] :: dbgFields fs
@[inherit_doc dbgExpr]
def dbgBranches : List (Expr × Expr) → List Dbg
  | [] => []
  | (p, e) :: bs => .tuple [] [dbgExpr p, dbgExpr e] :: dbgBranches bs
/-- src/ast/expression/core.rs:10-15. -/
def dbgDefinition : FunctionDefinition → Dbg
  | .mk n as b => .struct c!"FunctionDefinition" [(c!"name", .str n), (c!"args", .list (dbgExprs as)), (c!"body", dbgExpr b)]
/-- src/ast/expression/core.rs:17-21. -/
def dbgFunction : Function → Dbg
  | .mk s d => .struct c!"Function" [(c!"signature", dbgOption dbgSignature s), (c!"definition", dbgDefinition d)]
/-- src/ast/expression/core.rs:23-27. -/
def dbgEntry : LetEntry → Dbg
  | .LetFunction f => .tuple c!"LetFunction" [dbgFunction f]
  | .LetBinding a b => .tuple c!"LetBinding" [dbgExpr a, dbgExpr b]
@[inherit_doc dbgEntry]
def dbgEntries : List LetEntry → List Dbg
  | [] => []
  | e :: es => dbgEntry e :: dbgEntries es
end

mutual
/-- src/ast/statement/core.rs:7-13. -/
def dbgExport : ExportSet → Dbg
  | .AllExport => .tuple c!"AllExport" []
  | .SubsetExport es => .tuple c!"SubsetExport" [.list (dbgExports es)]
  | .FunctionExport n => .tuple c!"FunctionExport" [.str n]
  | .TypeExport n none => .tuple c!"TypeExport" [.str n, .tuple c!"None" []]
  | .TypeExport n (some e) => .tuple c!"TypeExport" [.str n, .tuple c!"Some" [dbgExport e]]
@[inherit_doc dbgExport]
def dbgExports : List ExportSet → List Dbg
  | [] => []
  | e :: es => dbgExport e :: dbgExports es
end

/-- src/ast/statement/core.rs:15-28. -/
def dbgStatement : Statement → Dbg
  | .ModuleDeclaration n e => .tuple c!"ModuleDeclaration" [dbgNames n, dbgExport e]
  | .PortModuleDeclaration n e => .tuple c!"PortModuleDeclaration" [dbgNames n, dbgExport e]
  | .EffectModuleDeclaration n w e => .tuple c!"EffectModuleDeclaration"
      [dbgNames n, .list (w.map fun p => .tuple [] [.str p.1, .str p.2]), dbgExport e]
  | .ImportStatement n a e => .tuple c!"ImportStatement" [dbgNames n, dbgOption .str a, dbgOption dbgExport e]
  | .TypeAliasDeclaration a b => .tuple c!"TypeAliasDeclaration" [dbgTy a, dbgTy b]
  | .TypeDeclaration a bs => .tuple c!"TypeDeclaration" [dbgTy a, .list (dbgTys bs)]
  | .PortTypeDeclaration n t => .tuple c!"PortTypeDeclaration" [.str n, dbgTy t]
  | .PortDeclaration n as b => .tuple c!"PortDeclaration" [.str n, dbgNames as, dbgExpr b]
  | .Function f => .tuple c!"Function" [dbgFunction f]
  | .InfixDeclaration a p n => .tuple c!"InfixDeclaration" [dbgAssoc a, .int p, .str n]
  | .Comment s => .tuple c!"Comment" [.str s]

/-! ### The output -/

/-- nom's `Err`, `Context`, `CompleteStr` and `ErrorKind`, whose `Debug` instances are derived. -/
def dbgEof (rest : Str) : Dbg :=
  .tuple c!"Error" [.tuple c!"Code" [.tuple c!"CompleteStr" [.str rest], .tuple c!"Eof" []]]

/-- One `println!`; `error` is what `{:#?}` makes of an error of `statements`, which is
not modelled (one text stands for all of them; no theorem is about it). -/
def msgText (st : Style) (error : Str) : Msg → Str
  /- check.rs:39 -/
  | .usage prog => c!"Usage: " ++ prog ++ c!" [elm file to check]\n"
  /- check.rs:56 -/
  | .names ns => render st 0 (dbgNames ns) ++ ['\n']
  /- check.rs:58 and dump.rs:41 -/
  | .error (.eof rest) => render st 0 (dbgEof rest) ++ ['\n']
  | .error .other => error ++ ['\n']
  /- dump.rs:34 -/
  | .tree sts => render st 0 (.list (sts.map dbgStatement)) ++ ['\n']
  /- dump.rs:32 -/
  | .parsed path => strText st path ++ c!" parsed successfully\n"
  /- dump.rs:39 -/
  | .failed path => strText st path ++ c!" failed to parse\n"

/-- The standard output of a run. -/
def stdout (st : Style) (error : Str) (o : Outcome) : Str := o.out.flatMap (msgText st error)

end ElmParser
