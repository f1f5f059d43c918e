import Verif.Props.Layout
import Verif.Props.Tokens

/-! C55: the printed tree shows everything that is in the file, as it is written there, and nothing else.  The
definitions before the lemmas describe a reader of text that knows nothing of the syntax tree. -/
namespace ElmParser
open Spec

/-- What a reader of the output finds. -/
inductive Item where
  /-- a literal delimited by `q`, with its escapes decoded -/
  | lit (q : Char) (s : Str)
  /-- a number -/
  | num (n : Int)
  /-- a word outside of literals -/
  | word (w : Str)
deriving DecidableEq

/-- Where the reader is, and what it has read of the current item. -/
inductive Scan where
  | between
  | word (w : Str)
  | num (negative : Bool) (n : Nat)
  | lit (q : Char) (s : Str)
  /-- after a backslash -/
  | escaped (q : Char) (s : Str)
  /-- after `\u` -/
  | code (q : Char) (s : Str)
  /-- after `\u{` and some digits -/
  | digits (q : Char) (s : Str) (n : Nat)

/-- The value of a digit. -/
def digitValue (c : Char) : Nat := if isDigit c then c.toNat - 48 else c.toNat - 87

/-- The character that starts an item or stands between two. -/
def start (c : Char) : Scan :=
  if c = '"' ∨ c = '\'' then .lit c []
  else if c = '-' then .num true 0
  else if isDigit c then .num false (digitValue c)
  else if isLetter c then .word [c]
  else .between

def number (negative : Bool) (n : Nat) : Item := .num (if negative then -(n : Int) else n)

/-- The items in a text. -/
def itemsFrom : Scan → Str → List Item
  | .word w, [] => [.word w]
  | .num b n, [] => [number b n]
  | _, [] => []
  | .between, c :: t => itemsFrom (start c) t
  | .word w, c :: t => if isLetter c then itemsFrom (.word (w ++ [c])) t else .word w :: itemsFrom (start c) t
  | .num b n, c :: t =>
      if isDigit c then itemsFrom (.num b (n * 10 + digitValue c)) t else number b n :: itemsFrom (start c) t
  | .lit q s, c :: t =>
      if c = '\\' then itemsFrom (.escaped q s) t
      else if c = q then .lit q s :: itemsFrom .between t
      else itemsFrom (.lit q (s ++ [c])) t
  | .escaped q s, c :: t => if c = 'u' then itemsFrom (.code q s) t else itemsFrom (.lit q (s ++ [short c])) t
  | .code q s, _ :: t => itemsFrom (.digits q s 0) t
  | .digits q s n, c :: t =>
      if c = '}' then itemsFrom (.lit q (s ++ [Char.ofNat n])) t
      else itemsFrom (.digits q s (n * 16 + digitValue c)) t

@[inherit_doc itemsFrom]
def shownItems (t : Str) : List Item := itemsFrom .between t

/-- What an item of the output shows of the file: a string is shown as itself, a character literal as the character, a
number as itself; `AllExport` shows `..`, and `L`, `R` and `N` show the keyword of an infix declaration. -/
def Item.shows : Item → List Leaf
  | .lit q s => if q = '"' then [.word s] else s.map .chr
  | .num n => [.num n]
  | .word w =>
      if w = c!"AllExport" then [.word c!".."]
      else if w = c!"L" then [.word c!"infixl"]
      else if w = c!"R" then [.word c!"infixr"]
      else if w = c!"N" then [.word c!"infix"]
      else []

/-- The leaf of a tree without the difference between field names and other names. -/
def Leaf.plain : Leaf → Leaf
  | .field w => .word w
  | l => l

/-! ### What a tree shows, in order: an operator comes before its operands -/

mutual
def exprShown : Expr → List Leaf
  | .Character c => [.chr c]
  | .String s | .Integer s | .Float s => [.word s]
  | .Variable ns => words ns
  | .List es | .Tuple es => exprsShown es
  | .Access e ns => exprShown e ++ words ns
  | .AccessFunction n => [.word n]
  | .Record fs => fieldsShown fs
  | .RecordUpdate n fs => .word n :: fieldsShown fs
  | .If a b c => exprShown a ++ exprShown b ++ exprShown c
  | .Let ls e => entriesShown ls ++ exprShown e
  | .Case e bs => exprShown e ++ branchesShown bs
  | .Lambda as e => exprsShown as ++ exprShown e
  | .Application f x => exprShown f ++ exprShown x
  | .BinOp o a b => exprShown o ++ exprShown a ++ exprShown b
def exprsShown : List Expr → List Leaf
  | [] => []
  | e :: es => exprShown e ++ exprsShown es
def fieldsShown : List (Name × Expr) → List Leaf
  | [] => []
  | (n, e) :: fs => .word n :: exprShown e ++ fieldsShown fs
def branchesShown : List (Expr × Expr) → List Leaf
  | [] => []
  | (a, b) :: bs => exprShown a ++ exprShown b ++ branchesShown bs
def defnShown : FunctionDefinition → List Leaf
  | .mk n as e => .word n :: exprsShown as ++ exprShown e
def functionShown : Function → List Leaf
  | .mk sg d => (signatureLeaves sg).map Leaf.plain ++ defnShown d
def entryShown : LetEntry → List Leaf
  | .LetFunction f => functionShown f
  | .LetBinding t e => exprShown t ++ exprShown e
def entriesShown : List LetEntry → List Leaf
  | [] => []
  | l :: ls => entryShown l ++ entriesShown ls
end

/-- Statements without expressions show their leaves as they are. -/
def statementShown : Statement → List Leaf
  | .PortDeclaration n as e => .word n :: words as ++ exprShown e
  | .Function f => functionShown f
  | x => (statementLeaves x).map Leaf.plain

/-! ### The items in the rendering of a value -/

mutual
def Dbg.items : Dbg → List Item
  | .str s => [.lit '"' s]
  | .chr c => [.lit '\'' [c]]
  | .int n => [.num n]
  | .tuple n fs => (if n = [] then [] else [.word n]) ++ itemsAll fs
  | .struct n fs => .word n :: itemsFields fs
  | .list xs => itemsAll xs
def itemsAll : List Dbg → List Item
  | [] => []
  | x :: xs => x.items ++ itemsAll xs
def itemsFields : List (Str × Dbg) → List Item
  | [] => []
  | (n, x) :: xs => (if n = [] then [] else [.word n]) ++ x.items ++ itemsFields xs
end

/-! ### Literals -/

theorem digitChar_value : ∀ d < 16, digitValue (digitChar d) = d := by decide

theorem digitsIn_value {b : Nat} (h2 : 2 ≤ b) (h16 : b ≤ 16) : ∀ {f n : Nat}, n < f →
    (digitsIn b f n).foldl (fun a c => a * b + digitValue c) 0 = n := by
  intro f
  induction f with
  | zero => intro n h; omega
  | succ f ih =>
    intro n h
    rw [digitsIn]
    split
    · next hn => simp [digitChar_value n (by omega)]
    · next hn =>
      have h1 : n / b < n := Nat.div_lt_self (by omega) (by omega)
      have h3 : n % b < b := Nat.mod_lt _ (by omega)
      rw [List.foldl_append, ih (by omega)]
      simp only [List.foldl_cons, List.foldl_nil]
      rw [digitChar_value _ (by omega)]
      have := Nat.div_add_mod n b
      rw [Nat.mul_comm] at this
      exact this

theorem itemsFrom_digits {ds : Str} (h : ∀ c ∈ ds, isDigit c = true) (b : Bool) (n : Nat) (r : Str) :
    itemsFrom (.num b n) (ds ++ r) = itemsFrom (.num b (ds.foldl (fun a c => a * 10 + digitValue c) n)) r := by
  induction ds generalizing n with
  | nil => rfl
  | cons c ds ih =>
    rw [List.cons_append, itemsFrom, if_pos (h c (by simp)), ih fun c hc => h c (by simp [hc])]
    rfl

theorem itemsFrom_hex {ds : Str} (h : ∀ c ∈ ds, isHex c = true) (q : Char) (s : Str) (n : Nat) (r : Str) :
    itemsFrom (.digits q s n) (ds ++ '}' :: r) =
      itemsFrom (.lit q (s ++ [Char.ofNat (ds.foldl (fun a c => a * 16 + digitValue c) n)])) r := by
  induction ds generalizing n with
  | nil => simp [itemsFrom]
  | cons c ds ih =>
    have hc : c ≠ '}' := by
      rintro rfl
      have := h '}' (by simp)
      cases this
    rw [List.cons_append, itemsFrom, if_neg hc, ih fun c hc => h c (by simp [hc])]
    rfl

theorem itemsFrom_escape (st : Style) {q : Char} (hq : q = '"' ∨ q = '\'') (c : Char) (s r : Str) :
    itemsFrom (.lit q s) (escape st q c ++ r) = itemsFrom (.lit q (s ++ [c])) r := by
  rcases escape_forms st hq c with ⟨e, h1, h2⟩ | ⟨x, h1, e, h2⟩ | e
  · rw [e, List.singleton_append, itemsFrom, if_neg h1, if_neg h2]
  · rw [e, List.cons_append, List.singleton_append, itemsFrom, if_pos rfl, itemsFrom, if_neg h1, h2]
  · rw [e]
    simp only [List.cons_append, List.append_assoc, List.nil_append]
    rw [itemsFrom, if_pos rfl, itemsFrom, if_pos rfl, itemsFrom, itemsFrom_hex (natText_hex _), natText,
      digitsIn_value (by omega) (by omega) (Nat.lt_succ_self _), Char.ofNat_toNat]

theorem itemsFrom_escapes (st : Style) {q : Char} (hq : q = '"' ∨ q = '\'') (x s r : Str) :
    itemsFrom (.lit q s) (x.flatMap (escape st q) ++ r) = itemsFrom (.lit q (s ++ x)) r := by
  induction x generalizing s with
  | nil => simp
  | cons c x ih =>
    rw [List.flatMap_cons, List.append_assoc, itemsFrom_escape st hq, ih]
    simp

theorem itemsFrom_shut {q : Char} (hq : q = '"' ∨ q = '\'') (s r : Str) :
    itemsFrom (.lit q s) (q :: r) = .lit q s :: itemsFrom .between r := by
  rcases hq with rfl | rfl <;> simp [itemsFrom]

theorem items_str (st : Style) (s r : Str) : shownItems (strText st s ++ r) = .lit '"' s :: shownItems r := by
  have := itemsFrom_escapes st (q := '"') (.inl rfl) s [] ('"' :: r)
  rw [List.nil_append, itemsFrom_shut (.inl rfl)] at this
  simp only [strText, shownItems, List.cons_append, List.append_assoc, List.nil_append]
  rw [itemsFrom]
  exact this

theorem items_chr (st : Style) (c : Char) (r : Str) : shownItems (charText st c ++ r) = .lit '\'' [c] :: shownItems r := by
  have := itemsFrom_escape st (q := '\'') (.inr rfl) c [] ('\'' :: r)
  rw [List.nil_append, itemsFrom_shut (.inr rfl)] at this
  simp only [charText, shownItems, List.cons_append, List.append_assoc, List.nil_append]
  rw [itemsFrom]
  exact this

/-- An item outside of literals ends before a character of another sort. -/
theorem itemsFrom_num {b : Bool} {n : Nat} {r : Str} (h : NotNext isDigit r) :
    itemsFrom (.num b n) r = number b n :: shownItems r := by
  cases r with
  | nil => rfl
  | cons c r => rw [itemsFrom, if_neg (by simp [h c r rfl]), shownItems, itemsFrom]

theorem itemsFrom_word {w r : Str} (h : NotNext isLetter r) : itemsFrom (.word w) r = .word w :: shownItems r := by
  cases r with
  | nil => rfl
  | cons c r => rw [itemsFrom, if_neg (by simp [h c r rfl]), shownItems, itemsFrom]

theorem start_digit {c : Char} (h : isDigit c = true) : start c = .num false (digitValue c) := by
  have h1 : ¬ (c = '"' ∨ c = '\'') := by
    rintro (rfl | rfl) <;> cases h
  have h2 : c ≠ '-' := by rintro rfl; cases h
  rw [start, if_neg h1, if_neg h2, if_pos h]

theorem start_letter {c : Char} (h : isLetter c = true) : start c = .word [c] := by
  have h1 : ¬ (c = '"' ∨ c = '\'') := by
    rintro (rfl | rfl) <;> cases h
  have h2 : c ≠ '-' := by rintro rfl; cases h
  have h3 : ¬ isDigit c = true := by
    intro hd
    have := sortOf_letter h
    have e : sortOf c = 2 := by
      unfold sortOf
      rw [if_neg (fun e => h1 (.inl e)), if_neg (fun e => h1 (.inr e)), if_pos (.inl hd)]
    omega
  rw [start, if_neg h1, if_neg h2, if_neg h3, if_pos h]

theorem items_nat (n : Nat) {r : Str} (h : NotNext isDigit r) : shownItems (natText 10 n ++ r) = .num n :: shownItems r := by
  obtain ⟨c, t, e, hc⟩ := natText_cons n
  have hv : (natText 10 n).foldl (fun a c => a * 10 + digitValue c) 0 = n :=
    digitsIn_value (by omega) (by omega) (Nat.lt_succ_self n)
  have hd := natText_digit n
  rw [e] at hv hd ⊢
  rw [List.cons_append, shownItems, itemsFrom, start_digit hc, itemsFrom_digits fun c h => hd c (by simp [h])]
  rw [List.foldl_cons, Nat.zero_mul, Nat.zero_add] at hv
  rw [hv, itemsFrom_num h]
  rfl

theorem items_int (n : Int) {r : Str} (h : NotNext isDigit r) : shownItems (intText n ++ r) = .num n :: shownItems r := by
  cases n with
  | ofNat n => exact items_nat n h
  | negSucc n =>
    have hv : (natText 10 (n + 1)).foldl (fun a c => a * 10 + digitValue c) 0 = n + 1 :=
      digitsIn_value (by omega) (by omega) (Nat.lt_succ_self _)
    rw [intText, List.cons_append, shownItems, itemsFrom]
    have : start '-' = .num true 0 := rfl
    rw [this, itemsFrom_digits (natText_digit _), hv, itemsFrom_num h]
    rfl

/-! ### Values -/

theorem itemsFrom_letters {n : Str} (h : Letters n) (w r : Str) :
    itemsFrom (.word w) (n ++ r) = itemsFrom (.word (w ++ n)) r := by
  induction n generalizing w with
  | nil => simp
  | cons c n ih =>
    rw [List.cons_append, itemsFrom, if_pos (h c (by simp)), ih fun c hc => h c (by simp [hc])]
    simp

theorem items_name {n : Str} (h : Letters n) {r : Str} (hr : NotNext isLetter r) :
    shownItems (n ++ r) = (if n = [] then [] else [.word n]) ++ shownItems r := by
  cases n with
  | nil => rfl
  | cons c n =>
    rw [List.cons_append, shownItems, itemsFrom, start_letter (h c (by simp)),
      itemsFrom_letters fun c hc => h c (by simp [hc]), itemsFrom_word hr]
    simp

/-- A character that is part of no item. -/
theorem items_skip {c : Char} (h : start c = .between) (r : Str) : shownItems (c :: r) = shownItems r := by
  rw [shownItems, itemsFrom, h]
  rfl

theorem items_line (d : Nat) (r : Str) : shownItems (line d ++ r) = shownItems r := by
  rw [line, List.cons_append, items_skip rfl]
  induction 4 * d with
  | zero => rfl
  | succ n ih => rw [List.replicate_succ, List.cons_append, items_skip rfl, ih]

theorem items_comma (st : Style) (b : Bool) (r : Str) : shownItems (commaAfter st b ++ r) = shownItems r := by
  unfold commaAfter
  split
  · rfl
  · exact items_skip rfl r

theorem notNext_cons {p : Char → Bool} {c : Char} (h : p c = false) (r : Str) : NotNext p (c :: r) := by
  rintro d t e
  obtain ⟨rfl, rfl⟩ := List.cons.inj e
  exact h

mutual
theorem items_render (st : Style) (d : Nat) : (x : Dbg) → x.Named → {r : Str} → Ends r →
    shownItems (render st d x ++ r) = x.items ++ shownItems r
  | .str s, _, r, _ => by rw [render, Dbg.items]; exact items_str st s r
  | .chr c, _, r, _ => by rw [render, Dbg.items]; exact items_chr st c r
  | .int n, _, r, hr => by rw [render, Dbg.items]; exact items_int n (hr.next rfl rfl)
  | .tuple n fs, h, r, hr => by
    rw [Dbg.Named] at h
    rw [render, Dbg.items]
    split
    · next hf =>
      rw [List.isEmpty_iff] at hf
      rw [hf, itemsAll, List.append_nil]
      exact items_name h.1 (hr.next rfl rfl)
    · simp only [List.append_assoc, List.cons_append, List.nil_append]
      rw [items_name h.1 (notNext_cons rfl _), items_skip rfl, items_renderItems st (d + 1) fs h.2.2 d (')' :: r),
        items_line, items_skip rfl]
  | .struct n fs, h, r, hr => by
    rw [Dbg.Named] at h
    rw [render, Dbg.items]
    simp only [List.append_assoc, List.cons_append, List.nil_append]
    rw [items_name h.1 (notNext_cons rfl _), if_neg h.2.1, items_skip rfl, items_skip rfl,
      items_renderFields st (d + 1) fs h.2.2 d ('}' :: r), items_line, items_skip rfl]
    rfl
  | .list xs, h, r, hr => by
    rw [Dbg.Named] at h
    rw [render, Dbg.items]
    split
    · next hf =>
      rw [List.isEmpty_iff] at hf
      rw [hf, itemsAll, List.cons_append, items_skip rfl, List.cons_append, items_skip rfl]
      rfl
    · simp only [List.append_assoc, List.cons_append, List.nil_append]
      rw [items_skip rfl, items_renderItems st (d + 1) xs h d (']' :: r), items_line, items_skip rfl]
theorem items_renderItems (st : Style) (d : Nat) : (xs : List Dbg) → NamedAll xs → (k : Nat) → (r : Str) →
    shownItems (renderItems st d xs ++ (line k ++ r)) = itemsAll xs ++ shownItems (line k ++ r)
  | [], _, _, _ => by rw [renderItems, itemsAll]; rfl
  | x :: xs, h, k, r => by
    rw [NamedAll] at h
    rw [renderItems, itemsAll]
    simp only [List.append_assoc]
    rw [items_line, items_render st d x h.1 (items_ends st _ _ k r (renderItems_head st d xs)), items_comma,
      items_renderItems st d xs h.2 k r]
theorem items_renderFields (st : Style) (d : Nat) : (xs : List (Str × Dbg)) → NamedFields xs → (k : Nat) → (r : Str) →
    shownItems (renderFields st d xs ++ (line k ++ r)) = itemsFields xs ++ shownItems (line k ++ r)
  | [], _, _, _ => by rw [renderFields, itemsFields]; rfl
  | (n, x) :: xs, h, k, r => by
    rw [NamedFields] at h
    rw [renderFields, itemsFields]
    simp only [List.append_assoc, List.cons_append, List.nil_append]
    rw [items_line, items_name h.1 (notNext_cons rfl _), items_skip rfl, items_skip rfl,
      items_render st d x h.2.1 (items_ends st _ _ k r (renderFields_head st d xs)), items_comma,
      items_renderFields st d xs h.2.2 k r]
end

theorem items_message (st : Style) (x : Dbg) (h : x.Named) : shownItems (render st 0 x ++ ['\n']) = x.items := by
  rw [items_render st 0 x h (.inr ⟨_, _, rfl, .inr rfl⟩)]
  exact List.append_nil _

/-! ### What the items of a tree show -/

/-- What a value shows. -/
def Dbg.shows (x : Dbg) : List Leaf := x.items.flatMap Item.shows
@[inherit_doc Dbg.shows]
def showsAll (xs : List Dbg) : List Leaf := (itemsAll xs).flatMap Item.shows

theorem shows_str (s : Str) : (Dbg.str s).shows = [.word s] := rfl
theorem shows_chr (c : Char) : (Dbg.chr c).shows = [.chr c] := rfl
theorem shows_int (n : Int) : (Dbg.int n).shows = [.num n] := rfl
theorem shows_list (xs : List Dbg) : (Dbg.list xs).shows = showsAll xs := by rw [Dbg.shows, Dbg.items]; rfl
theorem showsAll_nil : showsAll [] = [] := rfl
theorem showsAll_cons (x : Dbg) (xs : List Dbg) : showsAll (x :: xs) = x.shows ++ showsAll xs := by
  rw [showsAll, itemsAll, List.flatMap_append]; rfl
/-- A constructor other than `AllExport`, `L`, `R` and `N` shows nothing itself. -/
theorem shows_tuple {n : Str} (h : n = [] ∨ (Item.word n).shows = []) (fs : List Dbg) :
    (Dbg.tuple n fs).shows = showsAll fs := by
  rw [Dbg.shows, Dbg.items, List.flatMap_append]
  split
  · rfl
  · next hn => simp [h.resolve_left hn, showsAll]
theorem shows_names (ns : List Name) : (dbgNames ns).shows = words ns := by
  rw [dbgNames, shows_list]
  induction ns with
  | nil => rfl
  | cons n ns ih => rw [List.map_cons, showsAll_cons, ih]; rfl

theorem plain_words (ns : List Name) : (words ns).map Leaf.plain = words ns := by
  simp [words, Leaf.plain]

/-- Values without a constructor that shows something. -/
local macro "shown" : tactic => `(tactic| (rw [shows_tuple (by decide)]; simp only [showsAll_cons, showsAll_nil, shows_list,
  shows_names, shows_str, shows_chr, shows_int, List.append_nil]))

mutual
theorem shown_ty : (t : Ty) → (dbgTy t).shows = (tyLeaves t).map Leaf.plain
  | .TypeConstructor n args => by
    rw [dbgTy]; shown; rw [shown_tys args, tyLeaves, List.map_append, plain_words]
  | .TypeVariable n => by rw [dbgTy]; shown; rfl
  | .TypeRecordConstructor b fs => by
    rw [dbgTy]; shown; rw [shown_ty b, shown_tyFields fs, tyLeaves, List.map_append]
  | .TypeRecord fs => by rw [dbgTy]; shown; rw [shown_tyFields fs, tyLeaves]
  | .TypeTuple ts => by rw [dbgTy]; shown; rw [shown_tys ts, tyLeaves]
  | .TypeApplication a b => by rw [dbgTy]; shown; rw [shown_ty a, shown_ty b, tyLeaves, List.map_append]
theorem shown_tys : (ts : List Ty) → showsAll (dbgTys ts) = (tysLeaves ts).map Leaf.plain
  | [] => rfl
  | t :: ts => by rw [dbgTys, showsAll_cons, shown_ty t, shown_tys ts, tysLeaves, List.map_append]
theorem shown_tyFields : (fs : List (Name × Ty)) → showsAll (dbgTyFields fs) = (tyFieldsLeaves fs).map Leaf.plain
  | [] => rfl
  | (n, t) :: fs => by
    rw [dbgTyFields, showsAll_cons]; shown
    rw [shown_ty t, shown_tyFields fs, tyFieldsLeaves, List.map_append, List.map_cons]
    rfl
end

theorem shows_struct {n : Str} (h : (Item.word n).shows = []) (fs : List (Str × Dbg))
    (hf : ∀ f ∈ fs, f.1 = [] ∨ (Item.word f.1).shows = []) :
    (Dbg.struct n fs).shows = showsAll (fs.map (·.2)) := by
  rw [Dbg.shows, Dbg.items, List.flatMap_cons, h, List.nil_append]
  induction fs with
  | nil => rfl
  | cons f fs ih =>
    obtain ⟨m, x⟩ := f
    rw [itemsFields, List.map_cons, showsAll_cons, List.flatMap_append, List.flatMap_append,
      ih fun f hf' => hf f (by simp [hf'])]
    have := hf (m, x) (by simp)
    split
    · rfl
    · next hn => simp [this.resolve_left hn, Dbg.shows]

theorem shown_signature (s : Option FunctionSignature) :
    (dbgOption dbgSignature s).shows = (signatureLeaves s).map Leaf.plain := by
  cases s with
  | none => rfl
  | some s =>
    obtain ⟨n, t⟩ := s
    rw [dbgOption]
    shown
    rw [dbgSignature, shows_struct (by decide) _ (by simp; decide)]
    simp only [List.map_cons, List.map_nil, showsAll_cons, showsAll_nil, List.append_nil, shows_str, shown_ty]
    rfl

mutual
theorem shown_expr : (e : Expr) → (dbgExpr e).shows = exprShown e
  | .Character c => by rw [dbgExpr]; shown; rfl
  | .String s => by rw [dbgExpr]; shown; rfl
  | .Integer s => by rw [dbgExpr]; shown; rfl
  | .Float s => by rw [dbgExpr]; shown; rfl
  | .Variable ns => by rw [dbgExpr]; shown; rw [exprShown]
  | .List es => by rw [dbgExpr]; shown; rw [exprShown, shown_exprs es]
  | .Tuple es => by rw [dbgExpr]; shown; rw [exprShown, shown_exprs es]
  | .Access e ns => by rw [dbgExpr]; shown; rw [exprShown, shown_expr e]
  | .AccessFunction n => by rw [dbgExpr]; shown; rfl
  | .Record fs => by rw [dbgExpr]; shown; rw [exprShown, shown_fields fs]
  | .RecordUpdate n fs => by rw [dbgExpr]; shown; rw [exprShown, shown_fields fs]; rfl
  | .If a b c => by rw [dbgExpr]; shown; rw [exprShown, shown_expr a, shown_expr b, shown_expr c, List.append_assoc]
  | .Let es b => by rw [dbgExpr]; shown; rw [exprShown, shown_entries es, shown_expr b]
  | .Case e bs => by rw [dbgExpr]; shown; rw [exprShown, shown_expr e, shown_branches bs]
  | .Lambda as b => by rw [dbgExpr]; shown; rw [exprShown, shown_exprs as, shown_expr b]
  | .Application f x => by rw [dbgExpr]; shown; rw [exprShown, shown_expr f, shown_expr x]
  | .BinOp o l r => by rw [dbgExpr]; shown; rw [exprShown, shown_expr o, shown_expr l, shown_expr r, List.append_assoc]
theorem shown_exprs : (es : List Expr) → showsAll (dbgExprs es) = exprsShown es
  | [] => rfl
  | e :: es => by rw [dbgExprs, showsAll_cons, exprsShown, shown_expr e, shown_exprs es]
theorem shown_fields : (fs : List (Name × Expr)) → showsAll (dbgFields fs) = fieldsShown fs
  | [] => rfl
  | (n, e) :: fs => by rw [dbgFields, showsAll_cons]; shown; rw [fieldsShown, shown_expr e, shown_fields fs]; rfl
theorem shown_branches : (bs : List (Expr × Expr)) → showsAll (dbgBranches bs) = branchesShown bs
  | [] => rfl
  | (p, e) :: bs => by
    rw [dbgBranches, showsAll_cons]; shown; rw [branchesShown, shown_expr p, shown_expr e, shown_branches bs]
theorem shown_definition : (d : FunctionDefinition) → (dbgDefinition d).shows = defnShown d
  | .mk n as b => by
    rw [dbgDefinition, shows_struct (by decide) _ (by simp; decide)]
    simp only [List.map_cons, List.map_nil, showsAll_cons, showsAll_nil, List.append_nil, shows_str, shows_list]
    rw [defnShown, shown_exprs as, shown_expr b]
    rfl
theorem shown_function : (f : Function) → (dbgFunction f).shows = functionShown f
  | .mk s d => by
    rw [dbgFunction, shows_struct (by decide) _ (by simp; decide)]
    simp only [List.map_cons, List.map_nil, showsAll_cons, showsAll_nil, List.append_nil, shown_signature]
    rw [functionShown, shown_definition d]
theorem shown_entry : (e : LetEntry) → (dbgEntry e).shows = entryShown e
  | .LetFunction f => by rw [dbgEntry]; shown; rw [entryShown, shown_function f]
  | .LetBinding a b => by rw [dbgEntry]; shown; rw [entryShown, shown_expr a, shown_expr b]
theorem shown_entries : (es : List LetEntry) → showsAll (dbgEntries es) = entriesShown es
  | [] => rfl
  | e :: es => by rw [dbgEntries, showsAll_cons, entriesShown, shown_entry e, shown_entries es]
end

mutual
theorem shown_export : (e : ExportSet) → (dbgExport e).shows = (exportLeaves e).map Leaf.plain
  | .AllExport => rfl
  | .SubsetExport es => by rw [dbgExport]; shown; rw [exportLeaves, shown_exports es]
  | .FunctionExport n => rfl
  | .TypeExport n none => rfl
  | .TypeExport n (some e) => by
    rw [dbgExport]; shown
    rw [shows_tuple (by decide)]
    simp only [showsAll_cons, showsAll_nil, List.append_nil]
    rw [shown_export e, exportLeaves]
    rfl
theorem shown_exports : (es : List ExportSet) → showsAll (dbgExports es) = (exportsLeaves es).map Leaf.plain
  | [] => rfl
  | e :: es => by rw [dbgExports, showsAll_cons, shown_export e, shown_exports es, exportsLeaves, List.map_append]
end

theorem shown_effects (fs : List (Name × Name)) :
    showsAll (fs.map fun p => .tuple [] [.str p.1, .str p.2]) =
      (fs.flatMap fun f => [Leaf.word f.1, .word f.2]).map Leaf.plain := by
  induction fs with
  | nil => rfl
  | cons f fs ih => rw [List.map_cons, showsAll_cons, ih]; rfl

theorem shown_statement (x : Statement) : (dbgStatement x).shows = statementShown x := by
  cases x with
  | ModuleDeclaration n e =>
    rw [dbgStatement]; shown; change _ = (statementLeaves _).map Leaf.plain; rw [statementLeaves, List.map_append, plain_words, shown_export]
  | PortModuleDeclaration n e =>
    rw [dbgStatement]; shown; change _ = (statementLeaves _).map Leaf.plain; rw [statementLeaves, List.map_append, plain_words, shown_export]
  | EffectModuleDeclaration n w e =>
    rw [dbgStatement]; shown
    change _ = (statementLeaves _).map Leaf.plain; rw [statementLeaves, List.map_append, List.map_append, plain_words, shown_export, shown_effects, List.append_assoc]
  | ImportStatement n a e =>
    rw [dbgStatement]; shown
    have key : ∀ x, (dbgOption dbgExport (some x)).shows = (exportLeaves x).map Leaf.plain := by
      intro x; rw [dbgOption]; shown; rw [shown_export]
    cases a <;> cases e <;> simp only [key, statementShown, statementLeaves, List.map_append, plain_words, List.append_assoc] <;>
      rfl
  | TypeAliasDeclaration a b => rw [dbgStatement]; shown; change _ = (statementLeaves _).map Leaf.plain; rw [statementLeaves, List.map_append, shown_ty, shown_ty]
  | TypeDeclaration a bs => rw [dbgStatement]; shown; change _ = (statementLeaves _).map Leaf.plain; rw [statementLeaves, List.map_append, shown_ty, shown_tys]
  | PortTypeDeclaration n t => rw [dbgStatement]; shown; change _ = (statementLeaves _).map Leaf.plain; rw [statementLeaves, shown_ty]; rfl
  | PortDeclaration n as b =>
    rw [dbgStatement]; shown
    rw [statementShown, shown_expr b]; rfl
  | Function f => rw [dbgStatement]; shown; rw [statementShown, shown_function f]
  | InfixDeclaration a p n => cases a <;> rfl
  | Comment s => rfl

theorem shown_statements (xs : List Statement) : showsAll (xs.map dbgStatement) = xs.flatMap statementShown := by
  induction xs with
  | nil => rfl
  | cons x xs ih => rw [List.map_cons, showsAll_cons, List.flatMap_cons, shown_statement, ih]

/-! ### Up to order these are the leaves -/

mutual
theorem exprShown_perm : (e : Expr) → (exprShown e).Perm ((exprLeaves e).map Leaf.plain)
  | .Character c | .String s | .Integer s | .Float s | .AccessFunction n => .refl _
  | .Variable ns => by rw [exprShown, exprLeaves, plain_words]
  | .List es | .Tuple es => by rw [exprShown, exprLeaves]; exact exprsShown_perm es
  | .Access e ns => by
    rw [exprShown, exprLeaves, List.map_append, plain_words]; exact (exprShown_perm e).append (.refl _)
  | .Record fs => by rw [exprShown, exprLeaves]; exact fieldsShown_perm fs
  | .RecordUpdate n fs => by rw [exprShown, exprLeaves]; exact (List.Perm.refl [Leaf.word n]).append (fieldsShown_perm fs)
  | .If a b c => by
    rw [exprShown, exprLeaves, List.map_append, List.map_append]
    exact ((exprShown_perm a).append (exprShown_perm b)).append (exprShown_perm c)
  | .Let es b => by
    rw [exprShown, exprLeaves, List.map_append]; exact (entriesShown_perm es).append (exprShown_perm b)
  | .Case e bs => by
    rw [exprShown, exprLeaves, List.map_append]; exact (exprShown_perm e).append (branchesShown_perm bs)
  | .Lambda as b => by
    rw [exprShown, exprLeaves, List.map_append]; exact (exprsShown_perm as).append (exprShown_perm b)
  | .Application f x => by
    rw [exprShown, exprLeaves, List.map_append]; exact (exprShown_perm f).append (exprShown_perm x)
  | .BinOp o l r => by
    rw [exprShown, exprLeaves, List.map_append, List.map_append]
    exact (((exprShown_perm o).append (exprShown_perm l)).trans List.perm_append_comm).append (exprShown_perm r)
theorem exprsShown_perm : (es : List Expr) → (exprsShown es).Perm ((exprsLeaves es).map Leaf.plain)
  | [] => .refl _
  | e :: es => by rw [exprsShown, exprsLeaves, List.map_append]; exact (exprShown_perm e).append (exprsShown_perm es)
theorem fieldsShown_perm : (fs : List (Name × Expr)) → (fieldsShown fs).Perm ((fieldsLeaves fs).map Leaf.plain)
  | [] => .refl _
  | (n, e) :: fs => by
    rw [fieldsShown, fieldsLeaves, List.map_append, List.map_cons]
    exact ((List.Perm.refl [Leaf.word n]).append (exprShown_perm e)).append (fieldsShown_perm fs)
theorem branchesShown_perm : (bs : List (Expr × Expr)) → (branchesShown bs).Perm ((branchesLeaves bs).map Leaf.plain)
  | [] => .refl _
  | (p, e) :: bs => by
    rw [branchesShown, branchesLeaves, List.map_append, List.map_append]
    exact ((exprShown_perm p).append (exprShown_perm e)).append (branchesShown_perm bs)
theorem defnShown_perm : (d : FunctionDefinition) → (defnShown d).Perm ((defnLeaves d).map Leaf.plain)
  | .mk n as b => by
    rw [defnShown, defnLeaves, List.map_append, List.map_cons, List.cons_append, List.cons_append]
    exact (List.Perm.refl [Leaf.word n]).append ((exprsShown_perm as).append (exprShown_perm b))
theorem functionShown_perm : (f : Function) → (functionShown f).Perm ((functionLeaves f).map Leaf.plain)
  | .mk s d => by
    rw [functionShown, functionLeaves, List.map_append]
    exact (List.Perm.refl _).append (defnShown_perm d)
theorem entryShown_perm : (e : LetEntry) → (entryShown e).Perm ((entryLeaves e).map Leaf.plain)
  | .LetFunction f => by rw [entryShown, entryLeaves]; exact functionShown_perm f
  | .LetBinding a b => by
    rw [entryShown, entryLeaves, List.map_append]; exact (exprShown_perm a).append (exprShown_perm b)
theorem entriesShown_perm : (es : List LetEntry) → (entriesShown es).Perm ((entriesLeaves es).map Leaf.plain)
  | [] => .refl _
  | e :: es => by
    rw [entriesShown, entriesLeaves, List.map_append]; exact (entryShown_perm e).append (entriesShown_perm es)
end

theorem statementShown_perm (x : Statement) : (statementShown x).Perm ((statementLeaves x).map Leaf.plain) := by
  cases x with
  | PortDeclaration n as b =>
    rw [statementShown, statementLeaves, List.map_append, List.map_cons, plain_words, List.cons_append, List.cons_append]
    exact (List.Perm.refl [Leaf.word n]).append ((List.Perm.refl _).append (exprShown_perm b))
  | Function f => rw [statementShown, statementLeaves]; exact functionShown_perm f
  | _ => exact .refl _

/-! ### The output -/

/-- C55: a tree is printed with every name, literal, number and comment in it, in order, and with nothing else. -/
theorem C55_tree (st : Style) (e : Str) (xs : List Statement) :
    (shownItems (msgText st e (.tree xs))).flatMap Item.shows = xs.flatMap statementShown := by
  rw [msgText, items_message st _ (named_statements xs), Dbg.items]
  exact shown_statements xs

/-- C55: these are the leaves of the tree in the order of the source, but for operators, which come before their
operands. -/
theorem C55_leaves (xs : List Statement) :
    (xs.flatMap statementShown).Perm ((xs.flatMap statementLeaves).map Leaf.plain) := by
  induction xs with
  | nil => exact .refl _
  | cons x xs ih =>
    rw [List.flatMap_cons, List.flatMap_cons, List.map_append]
    exact (statementShown_perm x).append ih

/-- C55: what the dumper prints for an accepted file shows, up to order, what stands in the file between the fixed tokens:
nothing is lost, repeated, changed or added. -/
theorem C55_file (st : Style) (e : Str) {s r : Str} {xs : List Statement} (h : file s = .ok xs r) :
    ∃ ls, Weave ls s ∧ ((shownItems (msgText st e (.tree xs))).flatMap Item.shows).Perm (ls.map Leaf.plain) :=
  ⟨_, C21_tokens_file h, C55_tree st e xs ▸ C55_leaves xs⟩
example := C55_file ⟨true, true, false, fun _ => false⟩ [] (s := c!"import A as B exposing (f, T(C, D))\n\n-- c\nf : Int -> a\nf x =\n  g x.y \"s\"\n") rfl

/-- C55: what the checker prints for an accepted file is the names imported, in order. -/
theorem C55_check (st : Style) (e : Str) {read : Str → Read} {f s : Str} (hr : read f = .contents s) (prog : Str)
    (more : List Str) {xs : List Statement} {r : Str} (h : file s = .ok xs r) :
    shownItems (stdout st e (checkMain read (prog :: f :: more))) = (getImportedNames xs).map (.lit '"') := by
  have : r = [] := (file_sound h).1
  subst this
  rcases C32_readable (prog := prog) more hr with ⟨sts, h1, h2⟩ | ⟨h1, -⟩
  · rw [h] at h1
    cases h1
    rw [h2]
    simp only [stdout, List.flatMap_cons, List.flatMap_nil, List.append_nil]
    rw [msgText, items_message st _ (named_names _), dbgNames, Dbg.items]
    induction getImportedNames xs with
    | nil => rfl
    | cons n ns ih => rw [List.map_cons, itemsAll, ih]; rfl
  · rw [h] at h1; cases h1

/-- C55: the text that was not read is printed in full. -/
theorem C55_rest (st : Style) (e r : Str) :
    shownItems (msgText st e (.error (.eof r))) =
      [.word c!"Error", .word c!"Code", .word c!"CompleteStr", .lit '"' r, .word c!"Eof"] := by
  rw [msgText, items_message st _ (by simp [dbgEof, Dbg.Named, NamedAll, Letters, isLetter])]
  rfl

/-- C55: so is the path of a file. -/
theorem C55_path (st : Style) (e p : Str) :
    shownItems (msgText st e (.parsed p)) = [.lit '"' p, .word c!"parsed", .word c!"successfully"] ∧
    shownItems (msgText st e (.failed p)) = [.lit '"' p, .word c!"failed", .word c!"to", .word c!"parse"] := by
  constructor <;> rw [msgText, items_str] <;> rfl

/-! ### Examples -/

/-- The reader on text that no tree has to do with. -/
example : shownItems c!"A_b(-12, 'x', \"\\u{3b1}\\\"\\n'\", { k: 07 })" =
    [.word c!"A_b", .num (-12), .lit '\'' c!"x", .lit '"' c!"α\"\n'", .word c!"k", .num 7] := by decide

/-- A file with an export of everything, an operator, an escape and a comment. -/
def shownText : Str := c!"module A exposing (..)\ninfixl 5 <+>\n--c\nx = 'a' <+> \"\\n\"\n"

example : file shownText = .ok [.ModuleDeclaration [c!"A"] .AllExport, .InfixDeclaration .L 5 c!"<+>", .Comment c!"c",
    .Function (.mk none (.mk c!"x" [] (.BinOp (.Variable [c!"<+>"]) (.Character 'a') (.String c!"\\n"))))] [] := rfl

set_option maxRecDepth 20000 in
/-- What its output shows: the operator comes before its operands. -/
example : (shownItems (stdout ⟨true, true, false, fun _ => false⟩ [] (dumpMain (fun _ => .contents shownText)
    (fun _ => some false) (fun _ => []) (some c!"a.elm") false))).flatMap Item.shows =
    [.word c!"A", .word c!"..", .word c!"infixl", .num 5, .word c!"<+>", .word c!"c", .word c!"x", .word c!"<+>", .chr 'a',
     .word c!"\\n"] := rfl

/-- The names a file imports, as the checker prints them. -/
def importText : Str := c!"import A.B exposing (f, g)\nimport C as D\n"

example : shownItems (stdout ⟨false, false, true, fun c => c.toNat == 0x3b1⟩ [] (checkMain (fun _ => .contents importText)
    [c!"check", c!"a.elm"])) = [.lit '"' c!"f", .lit '"' c!"g"] :=
  C55_check _ _ (read := fun _ => .contents importText) (f := c!"a.elm") (s := importText) rfl _ _ (r := []) (xs := [.ImportStatement [c!"A", c!"B"] none
    (some (.SubsetExport [.FunctionExport c!"f", .FunctionExport c!"g"])), .ImportStatement [c!"C"] (some c!"D") none]) rfl

end ElmParser
