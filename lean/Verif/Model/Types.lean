import Verif.Model.Helpers

/-! Model of src/ast/type_/mod.rs.

`type_` and `type_annotation` are mutually recursive with the record and tuple
parsers.  Every recursive call (one made from inside a bracket) goes through
the parameter `self`, and `tyN` ties the knot with a budget on the nesting
depth; `type_` and `typeAnnotation` use a budget that is proved sufficient. -/
namespace ElmParser

/-- The regex class `[a-z1-9_]` of src/ast/type_/mod.rs:11. -/
def isTyVarChar (c : Char) : Bool := isLower c || decide ('1' ≤ c ∧ c ≤ '9') || c == '_'

/-- src/ast/type_/mod.rs:10-12 `type_variable`: regex `^([a-z][a-z1-9_]*)`. -/
def typeVariable : Parser Ty := do
  let c ← reMatches (reHeadTail isLower isTyVarChar)
  let n ← index c 0
  pure (.TypeVariable n)

/-- src/ast/type_/mod.rs:14-22 `type_constant`. -/
def typeConstant : Parser Ty :=
  pmap (sepNonemptyList (char '.') upName) (fun v => .TypeConstructor v [])

/-- The two recursive entry points used inside brackets. -/
structure TyRec where
  type_ : Nat → Parser Ty
  typeAnnotation : Nat → Parser Ty

/-- The separator of src/ast/type_/mod.rs:29-33 and 55-59. -/
def commaSep (indentation : Nat) : Parser Char :=
  delimited (opt (gap indentation .GTE)) (char ',') (opt (gap indentation .GTE))

/-- src/ast/type_/mod.rs:24-40 `type_tuple`. -/
def typeTuple (self : TyRec) (indentation : Nat) : Parser Ty :=
  pmap
    (delimited
      (preceded (char '(') (opt (gap indentation .GTE)))
      (sepList (commaSep indentation) (self.type_ indentation))
      (terminated (opt (gap indentation .GTE)) (char ')')))
    .TypeTuple

/-- src/ast/type_/mod.rs:42-51 `type_record_pair`. -/
def typeRecordPair (self : TyRec) (indentation : Nat) : Parser (Name × Ty) := do
  let name ← loName
  let _ ← opt (gap indentation .GTE)
  let _ ← char ':'
  let _ ← opt (gap indentation .GTE)
  let t ← self.typeAnnotation indentation
  pure (name, t)

/-- src/ast/type_/mod.rs:53-62 `type_record_pairs`. -/
def typeRecordPairs (self : TyRec) (indentation : Nat) : Parser (List (Name × Ty)) :=
  sepList (commaSep indentation) (typeRecordPair self indentation)

/-- src/ast/type_/mod.rs:64-79 `type_record_constructor`. -/
def typeRecordConstructor (self : TyRec) (indentation : Nat) : Parser Ty :=
  delimited
    (char '{')
    (do
      let _ ← gap indentation .GTE
      let var ← typeVariable
      let _ ← gap indentation .GTE
      let _ ← char '|'
      let _ ← gap indentation .GTE
      let record_pairs ← typeRecordPairs self indentation
      let _ ← gap indentation .GTE
      pure (.TypeRecordConstructor var record_pairs))
    (char '}')

/-- src/ast/type_/mod.rs:81-90 `type_record`. -/
def typeRecord (self : TyRec) (indentation : Nat) : Parser Ty :=
  delimited
    (preceded (char '{') (opt (gap indentation .GTE)))
    (pmap (typeRecordPairs self indentation) .TypeRecord)
    (terminated (opt (gap indentation .GTE)) (char '}'))

/-- The parenthesised alternative of src/ast/type_/mod.rs:99-103 and 131-135. -/
def typeParens (self : TyRec) (indentation : Nat) : Parser Ty :=
  delimited
    (preceded (char '(') (opt (gap indentation .GTE)))
    (self.typeAnnotation indentation)
    (terminated (opt (gap indentation .GTE)) (char ')'))

/-- src/ast/type_/mod.rs:92-105 `type_parameter`. -/
def typeParameter (self : TyRec) (indentation : Nat) : Parser Ty :=
  typeVariable
    </> typeConstant
    </> typeRecordConstructor self indentation
    </> typeRecord self indentation
    </> typeTuple self indentation
    </> typeParens self indentation

/-- src/ast/type_/mod.rs:113-119: one argument of a type constructor. -/
def typeArg (self : TyRec) (indentation : Nat) : Parser Ty := do
  let new_indent ← gap indentation .GT
  let type_ ← typeParameter self new_indent
  pure type_

/-- src/ast/type_/mod.rs:107-122 `type_constructor`. -/
def typeConstructorF (self : TyRec) (indentation : Nat) : Parser Ty := do
  let first ← sepNonemptyList (char '.') upName
  let second ← many0 (typeArg self indentation)
  pure (.TypeConstructor first second)

/-- src/ast/type_/mod.rs:124-137 `type_`. -/
def typeF (self : TyRec) (indentation : Nat) : Parser Ty :=
  typeConstructorF self indentation
    </> typeVariable
    </> typeRecordConstructor self indentation
    </> typeRecord self indentation
    </> typeTuple self indentation
    </> typeParens self indentation

/-- src/ast/type_/mod.rs:142 the arrow between two types. -/
def arrowSep : Parser Str := delimited spacesAndNewlines (tag c!"->") spacesAndNewlines

/-- src/ast/type_/mod.rs:155-165: `let last = v.pop(); let second_to_last =
v.pop(); ... for entry in v.iter().rev()`.  The argument is the reversed
vector, so `pop` takes the head and `v.iter().rev()` is the tail in order. -/
def buildArrows (rev : List Ty) : Option Ty :=
  match rev with
  | t2 :: t1 :: v =>
    some (v.foldl (fun app entry => .TypeApplication entry app) (.TypeApplication t1 t2))
  | _ => none

/-- src/ast/type_/mod.rs:139-171 `type_annotation`.  `v[0]` is a checked index. -/
def typeAnnotationF (self : TyRec) (indentation : Nat) : Parser Ty := do
  let v ← sepNonemptyList arrowSep (typeF self indentation)
  if v.isEmpty then Parser.fail
  else if v.length == 1 then index v 0
  else match buildArrows v.reverse with
    | some app => pure app
    | none => Parser.fail

/-- Nesting budget. -/
def tyN : Nat → TyRec
  | 0 => { type_ := fun _ _ => .div, typeAnnotation := fun _ _ => .div }
  | n + 1 => { type_ := typeF (tyN n), typeAnnotation := typeAnnotationF (tyN n) }

/-- The types parser used everywhere: the nesting depth of brackets cannot
exceed the length of the input (proved in `Proofs/Total.lean`). -/
def tyRec : TyRec where
  type_ ind s := (tyN (s.length + 1)).type_ ind s
  typeAnnotation ind s := (tyN (s.length + 1)).typeAnnotation ind s

/-- src/ast/type_/mod.rs:124 `pub type_`. -/
def type_ (indentation : Nat) : Parser Ty := tyRec.type_ indentation
/-- src/ast/type_/mod.rs:139 `pub type_annotation`. -/
def typeAnnotation (indentation : Nat) : Parser Ty := tyRec.typeAnnotation indentation
/-- src/ast/type_/mod.rs:107 `pub type_constructor`. -/
def typeConstructor (indentation : Nat) : Parser Ty := typeConstructorF tyRec indentation

end ElmParser
