import Verif.Spec.Lex

/-! The concrete syntax of types: which texts are layouts of which type tree, and
which type trees have a text at all.  Independent of the parser. -/
namespace ElmParser.Spec

/-- `g` is a layout gap in the context of indentation `ind`, required to stand in
relation `ir` to it when it contains a line end; after it the indentation is `i`. -/
def GapTxt (ind : Nat) (ir : IR) (i : Nat) (g : Str) : Prop :=
  ∃ ls n, g = gapText ls ⟨n, none⟩ ∧ g ≠ [] ∧ (∀ l ∈ ls, l.ok) ∧
    ((ls = [] ∧ i = ind) ∨ (ls ≠ [] ∧ i = n % 4294967296 ∧ Rel ir i ind))

/-- An optional gap. -/
def OptGapTxt (ind : Nat) (ir : IR) (g : Str) : Prop := g = [] ∨ ∃ i, GapTxt ind ir i g

/-- Spaces and newlines, at least one. -/
def SpaceNl (w : Str) : Prop := w ≠ [] ∧ ∀ c ∈ w, c = ' ' ∨ c = '\n'

/-- Syntactic categories of types. -/
inductive TyCat where
  /-- something closed, or a variable -/
  | atom (t : Ty)
  /-- an argument of a type constructor -/
  | par (t : Ty)
  /-- a type without a top-level arrow -/
  | ty (t : Ty)
  /-- a type -/
  | ann (t : Ty)
  /-- the arguments of a type constructor, each with the gap before it -/
  | args (ts : List Ty)
  /-- the second and further components of a tuple, each with its comma -/
  | items (ts : List Ty)
  /-- a record field -/
  | field (f : Name × Ty)
  /-- the second and further fields of a record, each with its comma -/
  | fields (fs : List (Name × Ty))

/-- `TySrc ind cat c`: the text `c` is a layout of `cat` at indentation `ind`. -/
inductive TySrc : Nat → TyCat → Str → Prop
  | var {ind n} : TyVar n → TySrc ind (.atom (.TypeVariable n)) n
  /-- `{ a | x : T, y : U }` -/
  | extRecord {ind v f fs g1 g2 g3 g4 i1 i2 i3 i4 c cs} : GapTxt ind .GTE i1 g1 → TyVar v →
      GapTxt ind .GTE i2 g2 → GapTxt ind .GTE i3 g3 → TySrc ind (.field f) c →
      TySrc ind (.fields fs) cs → GapTxt ind .GTE i4 g4 →
      TySrc ind (.atom (.TypeRecordConstructor (.TypeVariable v) (f :: fs)))
        (c!"{" ++ g1 ++ v ++ g2 ++ c!"|" ++ g3 ++ c ++ cs ++ g4 ++ c!"}")
  | record0 {ind g} : OptGapTxt ind .GTE g → TySrc ind (.atom (.TypeRecord [])) (c!"{" ++ g ++ c!"}")
  /-- `{ x : T, y : U }` -/
  | record {ind f fs g1 g2 c cs} : OptGapTxt ind .GTE g1 → TySrc ind (.field f) c →
      TySrc ind (.fields fs) cs → OptGapTxt ind .GTE g2 →
      TySrc ind (.atom (.TypeRecord (f :: fs))) (c!"{" ++ g1 ++ c ++ cs ++ g2 ++ c!"}")
  | tuple0 {ind g} : OptGapTxt ind .GTE g → TySrc ind (.atom (.TypeTuple [])) (c!"(" ++ g ++ c!")")
  /-- `( T, U )`, and also `( T )` -/
  | tuple {ind t ts g1 g2 c cs} : OptGapTxt ind .GTE g1 → TySrc ind (.ty t) c →
      TySrc ind (.items ts) cs → OptGapTxt ind .GTE g2 →
      TySrc ind (.atom (.TypeTuple (t :: ts))) (c!"(" ++ g1 ++ c ++ cs ++ g2 ++ c!")")
  /-- `( T -> U )` -/
  | parens {ind t u g1 g2 w1 w2 c d} : OptGapTxt ind .GTE g1 → TySrc ind (.ty t) c → SpaceNl w1 →
      SpaceNl w2 → TySrc ind (.ann u) d → OptGapTxt ind .GTE g2 →
      TySrc ind (.atom (.TypeApplication t u))
        (c!"(" ++ g1 ++ c ++ w1 ++ c!"->" ++ w2 ++ d ++ g2 ++ c!")")
  | parAtom {ind t c} : TySrc ind (.atom t) c → TySrc ind (.par t) c
  | parConst {ind ns} : ns ≠ [] → (∀ n ∈ ns, UpName n) →
      TySrc ind (.par (.TypeConstructor ns [])) (dotted ns)
  | tyAtom {ind t c} : TySrc ind (.atom t) c → TySrc ind (.ty t) c
  /-- `A.B T U` -/
  | con {ind ns ts cs} : ns ≠ [] → (∀ n ∈ ns, UpName n) → TySrc ind (.args ts) cs →
      TySrc ind (.ty (.TypeConstructor ns ts)) (dotted ns ++ cs)
  | args0 {ind} : TySrc ind (.args []) []
  | args {ind i t ts g c cs} : GapTxt ind .GT i g → TySrc i (.par t) c → TySrc ind (.args ts) cs →
      TySrc ind (.args (t :: ts)) (g ++ c ++ cs)
  | items0 {ind} : TySrc ind (.items []) []
  | items {ind t ts g1 g2 c cs} : OptGapTxt ind .GTE g1 → OptGapTxt ind .GTE g2 →
      TySrc ind (.ty t) c → TySrc ind (.items ts) cs →
      TySrc ind (.items (t :: ts)) (g1 ++ c!"," ++ g2 ++ c ++ cs)
  /-- `x : T` -/
  | field {ind n t g1 g2 c} : LoName n → OptGapTxt ind .GTE g1 → OptGapTxt ind .GTE g2 →
      TySrc ind (.ann t) c → TySrc ind (.field (n, t)) (n ++ g1 ++ c!":" ++ g2 ++ c)
  | fields0 {ind} : TySrc ind (.fields []) []
  | fields {ind f fs g1 g2 c cs} : OptGapTxt ind .GTE g1 → OptGapTxt ind .GTE g2 →
      TySrc ind (.field f) c → TySrc ind (.fields fs) cs →
      TySrc ind (.fields (f :: fs)) (g1 ++ c!"," ++ g2 ++ c ++ cs)
  | annTy {ind t c} : TySrc ind (.ty t) c → TySrc ind (.ann t) c
  /-- `T -> U` -/
  | annArrow {ind t u w1 w2 c d} : TySrc ind (.ty t) c → SpaceNl w1 → SpaceNl w2 →
      TySrc ind (.ann u) d → TySrc ind (.ann (.TypeApplication t u)) (c ++ w1 ++ c!"->" ++ w2 ++ d)

/-- A character a type can start with. -/
def TyHead (c : Char) : Prop := Lower c ∨ Upper c ∨ c = '{' ∨ c = '('

/-- No name, number or dot continues the last token. -/
def TokenEnd (r : Str) : Prop := Next (fun c => ¬ IdentChar c ∧ c ≠ '.') r

/-- The text `r` ends a type read at indentation `ind`: the token before is complete, and after
a gap comes no arrow, and nothing that starts a type unless it stands on a new line that is not
indented more than `ind`. -/
def TyStop (ind : Nat) (r : Str) : Prop :=
  TokenEnd r ∧ (NoGap r ∨ ∃ ls last r', Gap r ls last r' ∧ (∀ t, r' ≠ '-' :: '>' :: t) ∧
    (Next (fun c => ¬ TyHead c) r' ∨ (ls ≠ [] ∧ column last % 4294967296 ≤ ind)))

/-- A constructor argument is not itself a constructor with arguments. -/
def ArgShape : Ty → Prop
  | .TypeConstructor _ args => args = []
  | _ => True

/-- The type trees that can be written. -/
inductive WFTy : Ty → Prop
  | con {ns ts} : ns ≠ [] → (∀ n ∈ ns, UpName n) → (∀ t ∈ ts, WFTy t) → (∀ t ∈ ts, ArgShape t) →
      WFTy (.TypeConstructor ns ts)
  | var {n} : TyVar n → WFTy (.TypeVariable n)
  | extRecord {v fs} : TyVar v → fs ≠ [] → (∀ f ∈ fs, LoName f.1) → (∀ f ∈ fs, WFTy f.2) →
      WFTy (.TypeRecordConstructor (.TypeVariable v) fs)
  | record {fs} : (∀ f ∈ fs, LoName f.1) → (∀ f ∈ fs, WFTy f.2) → WFTy (.TypeRecord fs)
  | tuple {ts} : (∀ t ∈ ts, WFTy t) → WFTy (.TypeTuple ts)
  | arrow {t u} : WFTy t → WFTy u → WFTy (.TypeApplication t u)

/-- `t0 -> (t1 -> (... -> tn))` -/
def rightNested : Ty → List Ty → Ty
  | t, [] => t
  | t, u :: us => .TypeApplication t (rightNested u us)

/-- Texts of types without a top-level arrow, joined by arrows. -/
inductive ArrowSrc (ind : Nat) : List Ty → Str → Prop
  | one {t c} : TySrc ind (.ty t) c → ArrowSrc ind [t] c
  | cons {t ts w1 w2 c d} : TySrc ind (.ty t) c → SpaceNl w1 → SpaceNl w2 → ArrowSrc ind ts d →
      ArrowSrc ind (t :: ts) (c ++ w1 ++ c!"->" ++ w2 ++ d)

end ElmParser.Spec
