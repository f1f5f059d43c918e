import Verif.Model.Binaries
import Verif.Props.Statements
import Verif.Props.Totality

/-! Properties of the two binaries: C30 to C33. -/
namespace ElmParser
open Spec

/-! ### C30 -/

/-- The functions in the exposing list of an import. -/
def exposedFunctions : Statement → List Name
  | .ImportStatement _ _ (some (.SubsetExport es)) => es.filterMap fun
    | .FunctionExport n => some n
    | _ => none
  | _ => []

theorem imports_of_items {es : List ExportSet} (h : ∀ e ∈ es, WFExport e) :
    getExportSetImportsAll es = es.filterMap fun | .FunctionExport n => some n | _ => none := by
  induction es with
  | nil => rw [getExportSetImportsAll]; rfl
  | cons e es ih =>
    rw [getExportSetImportsAll, ih fun e he => h e (List.mem_cons_of_mem _ he), List.filterMap_cons]
    have := h e (by simp)
    match e, this with
    | .FunctionExport n, _ => rw [getExportSetImports]; rfl
    | .TypeExport n o, _ => simp only [getExportSetImports]; rfl

/-- C30: for well-formed statements the names are the functions of the exposing lists, in source order. -/
theorem C30_wellformed {sts : List Statement} (h : ∀ x ∈ sts, WFStatement x) :
    getImportedNames sts = sts.flatMap exposedFunctions := by
  unfold getImportedNames
  induction sts with
  | nil => rfl
  | cons x sts ih =>
    rw [List.flatMap_cons, List.flatMap_cons, ih fun x hx => h x (List.mem_cons_of_mem _ hx)]
    congr 1
    have := h x (by simp)
    cases x with
    | ImportStatement ns a e =>
      cases e with
      | none => rfl
      | some e =>
        have := this.2.2 e rfl
        match e, this with
        | .AllExport, _ => simp only [getExportSetImports, exposedFunctions]
        | .SubsetExport es, ⟨_, h⟩ => simp only [getExportSetImports, exposedFunctions]; exact imports_of_items h
    | _ => rfl

/-- C30: the same for everything the parser returns. -/
theorem C30_file {s r : Str} {sts : List Statement} (h : file s = .ok sts r) :
    getImportedNames sts = sts.flatMap exposedFunctions := C30_wellformed (C20_file h)
example := C30_file (s := c!"import A as B exposing (f, T(C, D))\n\n-- c\nf : Int -> a\nf x =\n  g x.y \"s\"\n") rfl

/-- A function is listed in an export set. -/
inductive Lists : ExportSet → Name → Prop
  | function {n} : Lists (.FunctionExport n) n
  | subset {es e n} : e ∈ es → Lists e n → Lists (.SubsetExport es) n

mutual
theorem mem_imports : (e : ExportSet) → (n : Name) → n ∈ getExportSetImports e ↔ Lists e n
  | .AllExport, n => by
    rw [getExportSetImports]
    · exact ⟨fun h => by simp at h, fun h => by cases h⟩
    all_goals intros; contradiction
  | .FunctionExport m, n => by
    rw [getExportSetImports, List.mem_singleton]
    exact ⟨fun h => h ▸ .function, fun h => by cases h; rfl⟩
  | .TypeExport m o, n => by
    rw [getExportSetImports]
    · exact ⟨fun h => by simp at h, fun h => by cases h⟩
    all_goals intros; contradiction
  | .SubsetExport es, n => by
    rw [getExportSetImports, mem_importsAll es n]
    exact ⟨fun ⟨e, h1, h2⟩ => .subset h1 h2, fun h => by cases h with | subset h1 h2 => exact ⟨_, h1, h2⟩⟩
theorem mem_importsAll : (es : List ExportSet) → (n : Name) → n ∈ getExportSetImportsAll es ↔ ∃ e ∈ es, Lists e n
  | [], n => by simp [getExportSetImportsAll]
  | e :: es, n => by
    rw [getExportSetImportsAll, List.mem_append, mem_imports e n, mem_importsAll es n]
    simp
end

/-- C30: for any statements, a name is collected iff an import statement lists it as a function. -/
theorem C30_iff {sts : List Statement} {n : Name} :
    n ∈ getImportedNames sts ↔ ∃ ns a e, .ImportStatement ns a (some e) ∈ sts ∧ Lists e n := by
  unfold getImportedNames
  rw [List.mem_flatMap]
  constructor
  · rintro ⟨x, hx, hn⟩
    match x, hx, hn with
    | .ImportStatement ns a (some e), hx, hn => exact ⟨ns, a, e, hx, (mem_imports e n).1 hn⟩
    | .ImportStatement ns a none, _, hn => simp at hn
  · rintro ⟨ns, a, e, hx, hn⟩
    exact ⟨_, hx, (mem_imports e n).2 hn⟩

example : ∃ sts, file c!"module M exposing (m)\nimport A exposing (f, T(C, D), (+))\nimport B exposing (..)\nimport A exposing (f)\nx = y" = .ok sts [] ∧
    getImportedNames sts = [c!"f", c!"+", c!"f"] := ⟨_, rfl, rfl⟩

/-! ### C31 -/

/-- C31: collecting names is compositional. -/
theorem C31_append (xs ys : List Statement) : getImportedNames (xs ++ ys) = getImportedNames xs ++ getImportedNames ys :=
  List.flatMap_append

/-- C31: statements that are not imports contribute nothing, wherever they stand. -/
theorem C31_insert (xs ys zs : List Statement) (h : ∀ y ∈ ys, ∀ ns a e, y ≠ .ImportStatement ns a e) :
    getImportedNames (xs ++ ys ++ zs) = getImportedNames (xs ++ zs) := by
  have : getImportedNames ys = [] := by
    refine List.flatMap_eq_nil_iff.2 fun y hy => ?_
    cases y with
    | ImportStatement ns a e => exact absurd rfl (h _ hy ns a e)
    | _ => rfl
  rw [C31_append, C31_append, C31_append, this, List.append_nil]

example : getImportedNames ([.ImportStatement [c!"A"] none (some (.SubsetExport [.FunctionExport c!"f"]))] ++
    [.Comment c!"c", .InfixDeclaration .L 3 c!"g"] ++
    [.ImportStatement [c!"B"] none (some (.SubsetExport [.FunctionExport c!"h"]))]) = [c!"f", c!"h"] :=
  C31_insert _ _ _ (by simp)

/-! ### C32 -/

/-- C32: without an argument the checker prints its usage and exits with status 1. -/
theorem C32_usage (read : Str → Read) (prog : Str) : checkMain read [prog] = ⟨[.usage prog], .code 1⟩ := rfl

/-- C32: with a readable file it exits with status 0, printing the names if the file parses and the
error if it does not. -/
theorem C32_readable {read : Str → Read} {prog f s : Str} (more : List Str) (h : read f = .contents s) :
    (∃ sts, file s = .ok sts [] ∧ checkMain read (prog :: f :: more) = ⟨[.names (getImportedNames sts)], .code 0⟩) ∨
    (file s = .err ∧ checkMain read (prog :: f :: more) = ⟨[.error (failure s)], .code 0⟩) := by
  have e : checkMain read (prog :: f :: more) = match file s with
      | .ok ast _ => ⟨[.names (getImportedNames ast)], .code 0⟩
      | .err => ⟨[.error (failure s)], .code 0⟩
      | .panic => ⟨[], .panicked⟩
      | .div => ⟨[], .diverged⟩ := by
    unfold checkMain
    simp only [List.length_cons, Nat.not_lt.2 (Nat.le_add_left 2 _), if_false, List.getElem?_cons_succ,
      List.getElem?_cons_zero, h]
    rfl
  rcases C01_file_total s with hs | ⟨sts, hs⟩
  · exact .inr ⟨hs, by rw [e, hs]⟩
  · exact .inl ⟨sts, hs, by rw [e, hs]⟩

/-- C32: a file that cannot be read makes it panic. -/
theorem C32_unreadable {read : Str → Read} {prog f : Str} (more : List Str) (h : read f = .failed) :
    checkMain read (prog :: f :: more) = ⟨[], .panicked⟩ := by
  unfold checkMain
  rw [if_neg (by simp)]
  simp [h]

/-- C32: status 1, and the usage text, mean exactly that no argument was given. -/
theorem C32_status {read : Str → Read} (prog : Str) (args : List Str) :
    ((checkMain read (prog :: args)).exit = .code 1 ↔ args = []) ∧
    ((∃ p, .usage p ∈ (checkMain read (prog :: args)).out) ↔ args = []) := by
  cases args with
  | nil => exact ⟨by simp [C32_usage], by simp [C32_usage]⟩
  | cons f more =>
    cases h : read f with
    | failed => rw [C32_unreadable more h]; simp
    | contents s =>
      rcases C32_readable (prog := prog) more h with ⟨sts, -, e⟩ | ⟨-, e⟩ <;> rw [e] <;> simp

example : checkMain (fun f => if f = c!"a.elm" then .contents c!"import A exposing (f)" else .failed)
    [c!"check", c!"a.elm"] = ⟨[.names [c!"f"]], .code 0⟩ := rfl
/-- A parse error does not show in the exit status. -/
example : checkMain (fun _ => .contents c!"import") [c!"check", c!"a.elm"] = ⟨[.error .other], .code 0⟩ := rfl

/-! ### C33 -/

/-- `path` ends in a file name `stem.elm` with a non-empty stem, up to trailing slashes and `/.`. -/
def ElmPath (path : Str) : Prop :=
  ∃ (d stem : Str) (tl : List Str), path = d ++ stem ++ c!".elm" ++ tl.flatMap ('/' :: ·) ∧ stem ≠ [] ∧ '/' ∉ stem ∧
    (d = [] ∨ ∃ d', d = d' ++ ['/']) ∧ ∀ p ∈ tl, p = [] ∨ p = c!"."

/-- Texts with slashes between them. -/
def joinSlash : List Str → Str
  | [] => []
  | [p] => p
  | p :: ps => p ++ '/' :: joinSlash ps

theorem joinSlash_cons (p : Str) (ps : List Str) (h : ps ≠ []) : joinSlash (p :: ps) = p ++ '/' :: joinSlash ps := by
  cases ps with
  | nil => exact absurd rfl h
  | cons => rfl

theorem splitSlash_ne (s : Str) : splitSlash s ≠ [] := by
  cases s with
  | nil => simp [splitSlash]
  | cons c s =>
    unfold splitSlash
    split
    · simp
    · split <;> simp

theorem splitSlash_join (s : Str) : joinSlash (splitSlash s) = s ∧ ∀ p ∈ splitSlash s, '/' ∉ p := by
  induction s with
  | nil => simp [splitSlash, joinSlash]
  | cons c s ih =>
    unfold splitSlash
    split
    · next hc =>
      subst hc
      refine ⟨by rw [joinSlash_cons _ _ (splitSlash_ne s), ih.1]; rfl, ?_⟩
      exact List.forall_mem_cons.2 ⟨by simp, ih.2⟩
    · next hc =>
      split
      · next h => exact absurd h (splitSlash_ne s)
      · next p ps h =>
        rw [h] at ih
        refine ⟨?_, ?_⟩
        · cases ps with
          | nil => rw [joinSlash]; rw [joinSlash] at ih; rw [ih.1]
          | cons q qs => rw [joinSlash_cons _ _ (by simp), List.cons_append, ← joinSlash_cons _ _ (by simp), ih.1]
        · obtain ⟨h1, h2⟩ := List.forall_mem_cons.1 ih.2
          refine List.forall_mem_cons.2 ⟨?_, h2⟩
          rw [List.mem_cons, not_or]
          exact ⟨fun h => hc h.symm, h1⟩

/-- A text without slashes is one part. -/
theorem splitSlash_one {p : Str} (h : '/' ∉ p) : splitSlash p = [p] := by
  induction p with
  | nil => rfl
  | cons c p ih =>
    rw [List.mem_cons, not_or] at h
    unfold splitSlash
    rw [if_neg (fun e => h.1 e.symm), ih h.2]

theorem splitSlash_slash {p s : Str} (h : '/' ∉ p) : splitSlash (p ++ '/' :: s) = p :: splitSlash s := by
  induction p with
  | nil => rw [List.nil_append, splitSlash, if_pos rfl]
  | cons c p ih =>
    rw [List.mem_cons, not_or] at h
    rw [List.cons_append, splitSlash, if_neg (fun e => h.1 e.symm), ih h.2]

theorem splitSlash_append (a b : Str) : splitSlash (a ++ '/' :: b) = splitSlash a ++ splitSlash b := by
  induction a with
  | nil => simp [splitSlash]
  | cons c a ih =>
    rw [List.cons_append, splitSlash, splitSlash]
    split
    · rw [ih]; rfl
    · rw [ih]
      cases h : splitSlash a with
      | nil => exact absurd h (splitSlash_ne a)
      | cons p ps => rfl

theorem splitSlash_tail {p : Str} (h : '/' ∉ p) (tl : List Str) (htl : ∀ q ∈ tl, '/' ∉ q) :
    splitSlash (p ++ tl.flatMap ('/' :: ·)) = p :: tl := by
  induction tl generalizing p with
  | nil => rw [List.flatMap_nil, List.append_nil, splitSlash_one h]
  | cons q tl ih =>
    rw [List.flatMap_cons, List.cons_append, splitSlash_slash h,
      ih (htl q (by simp)) fun q hq => htl q (List.mem_cons_of_mem _ hq)]

theorem joinSlash_tail (p : Str) (tl : List Str) : joinSlash (p :: tl) = p ++ tl.flatMap ('/' :: ·) := by
  induction tl generalizing p with
  | nil => simp [joinSlash]
  | cons q tl ih => rw [joinSlash_cons _ _ (by simp), ih, List.flatMap_cons]; rfl

theorem joinSlash_append (ps : List Str) (q : Str) (tl : List Str) :
    ∃ d, joinSlash (ps ++ q :: tl) = d ++ q ++ tl.flatMap ('/' :: ·) ∧ (d = [] ∨ ∃ d', d = d' ++ ['/']) := by
  induction ps with
  | nil => exact ⟨[], joinSlash_tail q tl, .inl rfl⟩
  | cons p ps ih =>
    obtain ⟨d, h1, h2⟩ := ih
    rw [List.cons_append, joinSlash_cons _ _ (by simp), h1]
    refine ⟨p ++ '/' :: d, by simp, .inr ?_⟩
    rcases h2 with rfl | ⟨d', rfl⟩
    · exact ⟨p, rfl⟩
    · exact ⟨p ++ '/' :: d', by simp⟩

theorem getLast_filter {α : Type} {p : α → Bool} {l : List α} {x : α} :
    (l.filter p).getLast? = some x ↔ p x = true ∧ ∃ a b, l = a ++ x :: b ∧ ∀ y ∈ b, p y = false := by
  induction l with
  | nil => simp
  | cons y l ih =>
    rw [List.filter_cons]
    split
    · next hy =>
      rw [List.getLast?_cons]
      cases h : (l.filter p).getLast? with
      | none =>
        rw [List.getLast?_eq_none_iff, List.filter_eq_nil_iff] at h
        simp only [Option.getD_none, Option.some.injEq]
        constructor
        · rintro rfl
          exact ⟨hy, [], l, rfl, fun z hz => by simpa using h z hz⟩
        · rintro ⟨hx, a, b, e, hb⟩
          cases a with
          | nil => exact (List.cons.inj e).1
          | cons z a =>
            obtain ⟨-, rfl⟩ := List.cons.inj e
            exact absurd hx (h x (by simp))
      | some z =>
        simp only [Option.getD_some, Option.some.injEq]
        rw [h] at ih
        simp only [Option.some.injEq] at ih
        constructor
        · rintro rfl
          obtain ⟨h1, a, b, rfl, hb⟩ := ih.1 rfl
          exact ⟨h1, y :: a, b, rfl, hb⟩
        · rintro ⟨hx, a, b, e, hb⟩
          cases a with
          | nil =>
            obtain ⟨rfl, rfl⟩ := List.cons.inj e
            rw [List.filter_eq_nil_iff.2 (fun w hw => by simp [hb w hw])] at h
            cases h
          | cons w a =>
            obtain ⟨-, rfl⟩ := List.cons.inj e
            exact ih.2 ⟨hx, a, b, rfl, hb⟩
    · next hy =>
      rw [ih]
      constructor
      · rintro ⟨hx, a, b, rfl, hb⟩
        exact ⟨hx, y :: a, b, rfl, hb⟩
      · rintro ⟨hx, a, b, e, hb⟩
        cases a with
        | nil => obtain ⟨rfl, rfl⟩ := List.cons.inj e; exact absurd hx hy
        | cons w a => obtain ⟨-, rfl⟩ := List.cons.inj e; exact ⟨hx, a, b, rfl, hb⟩

theorem splitLastDot_none {s a : Str} (h : splitLastDot s = (none, a)) : a = s ∧ '.' ∉ s := by
  induction s generalizing a with
  | nil => simp only [splitLastDot, Prod.mk.injEq, true_and] at h; exact ⟨h.symm, by simp⟩
  | cons c s ih =>
    rw [splitLastDot] at h
    split at h
    · cases h
    · next a' e =>
      split at h
      · cases h
      · next hc =>
        obtain ⟨rfl, hs⟩ := ih e
        cases h
        refine ⟨rfl, ?_⟩
        rw [List.mem_cons, not_or]
        exact ⟨fun e => hc e.symm, hs⟩

theorem splitLastDot_iff {s a b : Str} : splitLastDot s = (some b, a) ↔ s = b ++ '.' :: a ∧ '.' ∉ a := by
  induction s generalizing a b with
  | nil => simp [splitLastDot]
  | cons c s ih =>
    rw [splitLastDot]
    split
    · next b' a' e =>
      constructor
      · intro h
        simp only [Prod.mk.injEq, Option.some.injEq] at h
        obtain ⟨rfl, rfl⟩ := h
        obtain ⟨rfl, ha⟩ := ih.1 e
        exact ⟨rfl, ha⟩
      · rintro ⟨e', ha⟩
        cases b with
        | nil =>
          obtain ⟨rfl, rfl⟩ := List.cons.inj e'
          obtain ⟨rfl, -⟩ := ih.1 e
          exact absurd (by simp) ha
        | cons d b =>
          obtain ⟨rfl, rfl⟩ := List.cons.inj e'
          rw [ih.2 ⟨rfl, ha⟩] at e
          cases e
          rfl
    · next a' e =>
      obtain ⟨rfl, hs⟩ := splitLastDot_none e
      split
      · next hc =>
        subst hc
        constructor
        · intro h; cases h; exact ⟨rfl, hs⟩
        · rintro ⟨e', ha⟩
          cases b with
          | nil => obtain ⟨-, rfl⟩ := List.cons.inj e'; rfl
          | cons d b => obtain ⟨-, rfl⟩ := List.cons.inj e'; exact absurd (by simp) hs
      · next hc =>
        constructor
        · intro h; cases h
        · rintro ⟨e', ha⟩
          cases b with
          | nil => exact absurd (List.cons.inj e').1 hc
          | cons d b => obtain ⟨-, rfl⟩ := List.cons.inj e'; exact absurd (by simp) hs

/-- C33: which paths have the extension `elm`. -/
theorem C33_extension {path : Str} : extension path = some c!"elm" ↔ ElmPath path := by
  have hname : ∀ q, fileName path = some q ↔ q ≠ [] ∧ q ≠ c!"." ∧ q ≠ c!".." ∧
      ∃ a b, splitSlash path = a ++ q :: b ∧ ∀ p ∈ b, p = [] ∨ p = c!"." := by
    intro q
    have key := getLast_filter (p := fun p : Str => decide (p ≠ [] ∧ p ≠ c!".")) (l := splitSlash path) (x := q)
    simp only [decide_eq_true_eq, decide_eq_false_iff_not, Classical.not_and_iff_not_or_not, Classical.not_not] at key
    unfold fileName
    split
    · next h =>
      rw [h] at key
      constructor
      · intro h; cases h
      · rintro ⟨h1, h2, h3, h4⟩
        cases key.2 ⟨⟨h1, h2⟩, h4⟩
    · next p h =>
      rw [h, Option.some.injEq] at key
      split
      · next hp =>
        constructor
        · intro h; cases h
        · rintro ⟨h1, h2, h3, h4⟩
          exact absurd (key.2 ⟨⟨h1, h2⟩, h4⟩ ▸ hp) h3
      · next hp =>
        rw [Option.some.injEq, key]
        constructor
        · rintro ⟨⟨h1, h2⟩, h4⟩
          exact ⟨h1, h2, (key.2 ⟨⟨h1, h2⟩, h4⟩) ▸ hp, h4⟩
        · rintro ⟨h1, h2, -, h4⟩
          exact ⟨⟨h1, h2⟩, h4⟩
  unfold extension
  constructor
  · intro h
    split at h
    · cases h
    · next q hq =>
      obtain ⟨-, -, -, a, b, e, hb⟩ := (hname q).1 hq
      split at h
      · cases h
      · cases h
      · next stem after hne hs =>
        simp only [Option.some.injEq] at h
        subst h
        obtain ⟨rfl, -⟩ := splitLastDot_iff.1 hs
        obtain ⟨h1, h2⟩ := splitSlash_join path
        rw [e] at h1 h2
        obtain ⟨d, h3, h4⟩ := joinSlash_append a (stem ++ c!".elm") b
        refine ⟨d, stem, b, ?_, ?_, ?_, h4, hb⟩
        · rw [← h1, h3, ← List.append_assoc d]
        · rintro rfl; exact hne rfl
        · have := h2 (stem ++ c!".elm") (by simp)
          exact fun h => this (List.mem_append_left _ h)
  · rintro ⟨d, stem, tl, rfl, hne, hs, hd, htl⟩
    have hsl : '/' ∉ stem ++ c!".elm" := by
      rw [List.mem_append, not_or]
      exact ⟨hs, by decide⟩
    have htl' : ∀ q ∈ tl, '/' ∉ q := by
      intro q hq
      rcases htl q hq with rfl | rfl <;> decide
    have hq : fileName (d ++ stem ++ c!".elm" ++ tl.flatMap ('/' :: ·)) = some (stem ++ c!".elm") := by
      refine (hname _).2 ⟨by simp, ?_, ?_, ?_⟩
      · intro h; exact absurd (congrArg List.length h) (by simp)
      · intro h; exact absurd (congrArg List.length h) (by simp)
      · rcases hd with rfl | ⟨d', rfl⟩
        · refine ⟨[], tl, ?_, htl⟩
          rw [List.nil_append, splitSlash_tail hsl tl htl']
          rfl
        · refine ⟨splitSlash d', tl, ?_, htl⟩
          rw [show d' ++ ['/'] ++ stem ++ c!".elm" ++ tl.flatMap ('/' :: ·) =
            d' ++ '/' :: (stem ++ c!".elm" ++ tl.flatMap ('/' :: ·)) by simp, splitSlash_append,
            splitSlash_tail hsl tl htl']
    rw [hq]
    have h := splitLastDot_iff.2 (show stem ++ c!".elm" = stem ++ '.' :: c!"elm" ∧ '.' ∉ c!"elm" from ⟨rfl, by decide⟩)
    simp only [h]

/-- The path of an entry that is to be reported. -/
def Target (e : Entry) (p : Str) : Prop := e.isDir = false ∧ e.path = some p ∧ ElmPath p

/-- The paths to be reported among the entries of a walk, in walk order: those before the first error. -/
inductive Targets : List (Option Entry) → List Str → Prop
  | done : Targets [] []
  | error {walk} : Targets (none :: walk) []
  | skip {e walk ps} : (∀ p, ¬ Target e p) → Targets walk ps → Targets (some e :: walk) ps
  | visit {e walk p ps} : Target e p → Targets walk ps → Targets (some e :: walk) (p :: ps)

/-- The report on a path: what the parser says of its contents. -/
def Reports (read : Str → Read) (quiet : Bool) (p : Str) (m : Msg) : Prop :=
  ∃ s, read p = .contents s ∧
    ((∃ sts, file s = .ok sts [] ∧ m = if quiet then .parsed p else .tree sts) ∨
      (file s = .err ∧ m = if quiet then .failed p else .error (failure s)))

/-- One report for each path, in the same order. -/
inductive ReportsAll (read : Str → Read) (quiet : Bool) : List Str → List Msg → Prop
  | nil : ReportsAll read quiet [] []
  | cons {p ps m ms} : Reports read quiet p m → ReportsAll read quiet ps ms → ReportsAll read quiet (p :: ps) (m :: ms)

theorem dumpFile_readable {read : Str → Read} {p s : Str} (quiet : Bool) (h : read p = .contents s) :
    ∃ m, dumpFile read p quiet = .ok m ∧ Reports read quiet p m := by
  rcases C01_file_total s with hs | ⟨sts, hs⟩
  · exact ⟨if quiet then .failed p else .error (failure s), by simp only [dumpFile, h, hs], s, h, .inr ⟨hs, rfl⟩⟩
  · exact ⟨if quiet then .parsed p else .tree sts, by simp only [dumpFile, h, hs], s, h, .inl ⟨sts, hs, rfl⟩⟩

theorem dumpFile_failed {read : Str → Read} {p : Str} (quiet : Bool) (h : read p = .failed) :
    dumpFile read p quiet = .error .panicked := by simp only [dumpFile, h]

/-- Every walk has exactly one list of targets. -/
theorem targets_exist (walk : List (Option Entry)) : ∃ ps, Targets walk ps := by
  induction walk with
  | nil => exact ⟨[], .done⟩
  | cons e walk ih =>
    obtain ⟨ps, h⟩ := ih
    cases e with
    | none => exact ⟨[], .error⟩
    | some e =>
      by_cases ht : ∃ p, Target e p
      · obtain ⟨p, hp⟩ := ht; exact ⟨p :: ps, .visit hp h⟩
      · exact ⟨ps, .skip (fun p hp => ht ⟨p, hp⟩) h⟩

@[inherit_doc targets_exist]
theorem targets_unique {walk : List (Option Entry)} {ps qs : List Str} (h1 : Targets walk ps) (h2 : Targets walk qs) :
    ps = qs := by
  induction h1 generalizing qs with
  | done => cases h2; rfl
  | error => cases h2; rfl
  | skip hs _ ih =>
    cases h2 with
    | skip _ h => exact ih h
    | visit hv _ => exact absurd hv (hs _)
  | visit hv _ ih =>
    cases h2 with
    | skip hs _ => exact absurd hv (hs _)
    | visit hv' h =>
      rw [ih h]
      have := hv.2.1.symm.trans hv'.2.1
      cases this
      rfl

theorem dumpDirectory_skip {read : Str → Read} {quiet : Bool} {e : Entry} {walk : List (Option Entry)}
    (h : ∀ p, ¬ Target e p) : dumpDirectory read quiet (some e :: walk) = dumpDirectory read quiet walk := by
  rw [dumpDirectory]
  split
  · rfl
  · next hd =>
    split
    · rfl
    · next p hp =>
      rw [if_pos]
      intro hx
      exact h p ⟨by simpa using hd, hp, C33_extension.1 hx⟩

theorem dumpDirectory_visit {read : Str → Read} {quiet : Bool} {e : Entry} {p : Str} {walk : List (Option Entry)}
    (h : Target e p) : dumpDirectory read quiet (some e :: walk) = match dumpFile read p quiet with
      | .error e => ⟨[], e⟩
      | .ok m => ⟨m :: (dumpDirectory read quiet walk).out, (dumpDirectory read quiet walk).exit⟩ := by
  rw [dumpDirectory]
  obtain ⟨h1, h2, h3⟩ := h
  rw [h1]
  simp only [h2, C33_extension.2 h3]
  simp only [ne_eq, not_true_eq_false, if_false, Bool.false_eq_true]
  rfl

theorem dumpDirectory_targets {read : Str → Read} {quiet : Bool} {walk : List (Option Entry)} {ps : List Str}
    (ht : Targets walk ps) (hr : ∀ p ∈ ps, read p ≠ .failed) :
    ReportsAll read quiet ps (dumpDirectory read quiet walk).out ∧ (dumpDirectory read quiet walk).exit = .code 0 := by
  induction ht with
  | done => exact ⟨.nil, rfl⟩
  | error => exact ⟨.nil, rfl⟩
  | skip hs _ ih => rw [dumpDirectory_skip hs]; exact ih hr
  | @visit e walk p ps hv _ ih =>
    have ih := ih fun q hq => hr q (List.mem_cons_of_mem _ hq)
    cases hp : read p with
    | failed => exact absurd hp (hr p (by simp))
    | contents s =>
      obtain ⟨m, h1, h2⟩ := dumpFile_readable quiet hp
      rw [dumpDirectory_visit hv, h1]
      exact ⟨.cons h2 ih.1, ih.2⟩

theorem dumpDirectory_unreadable {read : Str → Read} {quiet : Bool} {walk : List (Option Entry)} {ps qs : List Str} {q : Str}
    (ht : Targets walk (ps ++ q :: qs)) (hr : ∀ p ∈ ps, read p ≠ .failed) (hq : read q = .failed) :
    ReportsAll read quiet ps (dumpDirectory read quiet walk).out ∧ (dumpDirectory read quiet walk).exit = .panicked := by
  induction walk generalizing ps with
  | nil => cases ps <;> cases ht
  | cons e walk ih =>
    generalize hl : ps ++ q :: qs = l at ht
    cases ht with
    | error => cases ps <;> cases hl
    | skip hs h => subst hl; rw [dumpDirectory_skip hs]; exact ih h hr
    | @visit _ _ p _ hv h =>
      cases ps with
      | nil =>
        cases hl
        rw [dumpDirectory_visit hv, dumpFile_failed quiet hq]
        exact ⟨.nil, rfl⟩
      | cons p' ps =>
        cases hl
        have ih := ih h fun q hq => hr q (List.mem_cons_of_mem _ hq)
        cases hp : read p with
        | failed => exact absurd hp (hr p (by simp))
        | contents s =>
          obtain ⟨m, h1, h2⟩ := dumpFile_readable quiet hp
          rw [dumpDirectory_visit hv, h1]
          exact ⟨.cons h2 ih.1, ih.2⟩

theorem dumpDirectory_walk_error (read : Str → Read) (quiet : Bool) (es walk : List (Option Entry)) :
    dumpDirectory read quiet (es ++ none :: walk) = dumpDirectory read quiet es := by
  induction es with
  | nil => rfl
  | cons e es ih =>
    cases e with
    | none => rfl
    | some e =>
      rw [List.cons_append]
      by_cases ht : ∃ p, Target e p
      · obtain ⟨p, hp⟩ := ht; rw [dumpDirectory_visit hp, dumpDirectory_visit hp, ih]
      · rw [dumpDirectory_skip (fun p hp => ht ⟨p, hp⟩), dumpDirectory_skip (fun p hp => ht ⟨p, hp⟩), ih]

/-- C33: when the targets of the walk of a directory can all be read, each is reported in walk order and the run
succeeds. -/
theorem C33_directory {read : Str → Read} {isDir : Str → Option Bool} {walk : Str → List (Option Entry)} {quiet : Bool}
    {d : Str} {ps : List Str} (hd : isDir d = some true) (ht : Targets (walk d) ps) (hr : ∀ p ∈ ps, read p ≠ .failed) :
    ReportsAll read quiet ps (dumpMain read isDir walk (some d) quiet).out ∧
    (dumpMain read isDir walk (some d) quiet).exit = .code 0 := by
  simp only [dumpMain, hd]
  exact dumpDirectory_targets ht hr

/-- C33: the first target that cannot be read ends the run with a panic, after the reports on those before it. -/
theorem C33_unreadable {read : Str → Read} {isDir : Str → Option Bool} {walk : Str → List (Option Entry)} {quiet : Bool}
    {d : Str} {ps qs : List Str} {q : Str} (hd : isDir d = some true) (ht : Targets (walk d) (ps ++ q :: qs))
    (hr : ∀ p ∈ ps, read p ≠ .failed) (hq : read q = .failed) :
    ReportsAll read quiet ps (dumpMain read isDir walk (some d) quiet).out ∧
    (dumpMain read isDir walk (some d) quiet).exit = .panicked := by
  simp only [dumpMain, hd]
  exact dumpDirectory_unreadable ht hr hq

/-- C33: an error of the walk ends the run as if the walk ended there. -/
theorem C33_walk_error {isDir : Str → Option Bool} {walk walk' : Str → List (Option Entry)} {d : Str}
    {es more : List (Option Entry)} (read : Str → Read) (quiet : Bool) (hd : isDir d = some true)
    (hw : walk d = es ++ none :: more) (hw' : walk' d = es) :
    dumpMain read isDir walk (some d) quiet = dumpMain read isDir walk' (some d) quiet := by
  simp only [dumpMain, hd, hw, hw']
  exact dumpDirectory_walk_error read quiet es more

/-- C33: on a path that is not a directory the dumper reports that path, whatever its extension. -/
theorem C33_file {read : Str → Read} {isDir : Str → Option Bool} {walk : Str → List (Option Entry)} {p : Str}
    {quiet : Bool} (hd : isDir p = some false) (hr : read p ≠ .failed) :
    ∃ m, dumpMain read isDir walk (some p) quiet = ⟨[m], .code 0⟩ ∧ Reports read quiet p m := by
  cases hp : read p with
  | failed => exact absurd hp hr
  | contents s =>
    obtain ⟨m, h1, h2⟩ := dumpFile_readable quiet hp
    exact ⟨m, by simp only [dumpMain, hd, h1], h2⟩

/-- A walk with a target, a directory, another file, a hidden file, an error, and a target after it. -/
example : Targets [some ⟨some c!"d/a.elm", false⟩, some ⟨some c!"d/b.elm", true⟩, some ⟨some c!"d/c.txt", false⟩,
    some ⟨some c!"d/.elm", false⟩, none, some ⟨some c!"d/e.elm", false⟩] [c!"d/a.elm"] := by
  have no : ∀ {p : Str}, extension p ≠ some c!"elm" → ∀ q, ¬ Target ⟨some p, false⟩ q := by
    rintro p h q ⟨-, e, hq⟩
    cases e
    exact h (C33_extension.2 hq)
  refine .visit ⟨rfl, rfl, c!"d/", c!"a", [], rfl, by decide, by decide, .inr ⟨c!"d", rfl⟩, by simp⟩
    (.skip (fun p h => by cases h.1) (.skip (no (by decide)) (.skip (no (by decide)) .error)))

/-! ### Outputs that differ in the text shown with an error -/

/-- The same messages, except that the unread texts shown with errors are related by `R`. -/
inductive SameMsgs (R : Str → Str → Prop) : List Msg → List Msg → Prop
  | nil : SameMsgs R [] []
  | same {m ms ms'} : SameMsgs R ms ms' → SameMsgs R (m :: ms) (m :: ms')
  | rest {r r' ms ms'} : R r r' → SameMsgs R ms ms' → SameMsgs R (.error (.eof r) :: ms) (.error (.eof r') :: ms')

/-- The same outcome, except that the unread texts shown with errors are related by `R`. -/
def Outcome.SameBut (R : Str → Str → Prop) (o o' : Outcome) : Prop := SameMsgs R o.out o'.out ∧ o.exit = o'.exit

theorem SameMsgs.refl {R : Str → Str → Prop} (ms : List Msg) : SameMsgs R ms ms := by
  induction ms with
  | nil => exact .nil
  | cons m ms ih => exact .same ih
theorem Outcome.SameBut.refl {R : Str → Str → Prop} (o : Outcome) : o.SameBut R o := ⟨.refl _, rfl⟩

theorem SameMsgs.append {R : Str → Str → Prop} {as as' bs bs' : List Msg} (h : SameMsgs R as as') (h' : SameMsgs R bs bs') :
    SameMsgs R (as ++ bs) (as' ++ bs') := by
  induction h with
  | nil => exact h'
  | same _ ih => exact .same ih
  | rest hr _ ih => exact .rest hr ih

/-- Two ways of dumping a file with messages related by `R`, or the same failure. -/
def SameFile (R : Str → Str → Prop) : Except Exit Msg → Except Exit Msg → Prop
  | .ok m, .ok m' => SameMsgs R [m] [m']
  | .error e, .error e' => e = e'
  | _, _ => False

theorem SameFile.refl {R : Str → Str → Prop} (x : Except Exit Msg) : SameFile R x x := by
  cases x
  · exact rfl
  · exact SameMsgs.refl _

theorem dumpDirectory_sameBut {R : Str → Str → Prop} {read read' : Str → Read} {quiet : Bool}
    (h : ∀ f, SameFile R (dumpFile read f quiet) (dumpFile read' f quiet)) (walk : List (Option Entry)) :
    (dumpDirectory read quiet walk).SameBut R (dumpDirectory read' quiet walk) := by
  induction walk with
  | nil => exact .refl _
  | cons e walk ih =>
    cases e with
    | none => exact .refl _
    | some e =>
      by_cases ht : ∃ p, Target e p
      · obtain ⟨p, hp⟩ := ht
        rw [dumpDirectory_visit hp, dumpDirectory_visit hp]
        have := h p
        cases h1 : dumpFile read p quiet <;> cases h2 : dumpFile read' p quiet <;> rw [h1, h2] at this
        · cases this; exact .refl _
        · exact this.elim
        · exact this.elim
        · exact ⟨SameMsgs.append this ih.1, ih.2⟩
      · rw [dumpDirectory_skip (fun p hp => ht ⟨p, hp⟩), dumpDirectory_skip (fun p hp => ht ⟨p, hp⟩)]
        exact ih

theorem dumpMain_sameBut {R : Str → Str → Prop} {read read' : Str → Read} {quiet : Bool}
    (h : ∀ f, SameFile R (dumpFile read f quiet) (dumpFile read' f quiet)) (isDir : Str → Option Bool)
    (walk : Str → List (Option Entry)) (path : Option Str) :
    (dumpMain read isDir walk path quiet).SameBut R (dumpMain read' isDir walk path quiet) := by
  cases path with
  | none => exact .refl _
  | some p =>
    unfold dumpMain
    simp only
    cases isDir p with
    | none => exact .refl _
    | some b =>
      cases b with
      | true => exact dumpDirectory_sameBut h _
      | false =>
        have := h p
        cases h1 : dumpFile read p quiet <;> cases h2 : dumpFile read' p quiet <;> rw [h1, h2] at this
        · cases this; exact .refl _
        · exact this.elim
        · exact this.elim
        · exact ⟨this, rfl⟩
example := C30_wellformed (sts := [.Comment c!"c", .Comment c!"d"]) (C20_file (s := c!"--c\n--d") rfl)
example := C32_readable (read := fun _ => .contents c!"import A exposing (f)") (prog := c!"check") (f := c!"a.elm") [] rfl
example := C32_unreadable (read := fun _ => .failed) (prog := c!"check") (f := c!"a.elm") [] rfl
/-- The walk of a directory with the files a.elm and b.elm. -/
theorem exampleWalk : Targets [some ⟨some c!"d", true⟩, some ⟨some c!"d/a.elm", false⟩, some ⟨some c!"d/b.elm", false⟩]
    [c!"d/a.elm", c!"d/b.elm"] :=
  .skip (fun p h => by cases h.1)
    (.visit ⟨rfl, rfl, c!"d/", c!"a", [], rfl, by decide, by decide, .inr ⟨c!"d", rfl⟩, by simp⟩
      (.visit ⟨rfl, rfl, c!"d/", c!"b", [], rfl, by decide, by decide, .inr ⟨c!"d", rfl⟩, by simp⟩ .done))
example := C33_directory (read := fun _ => .contents c!"x = 1") (isDir := fun _ => some true) (walk := fun _ => _)
  (quiet := true) (d := c!"d") rfl exampleWalk (by intro p _ h; cases h)
example := C33_unreadable (read := fun p => if p = c!"d/b.elm" then .failed else .contents c!"x = 1")
  (isDir := fun _ => some true) (walk := fun _ => _) (quiet := true) (d := c!"d") (ps := [c!"d/a.elm"]) (q := c!"d/b.elm")
  (qs := []) rfl exampleWalk (by simp) rfl
example := C33_walk_error (isDir := fun _ => some true)
  (walk := fun _ => [some ⟨some c!"d/a.elm", false⟩, none, some ⟨some c!"d/b.elm", false⟩])
  (walk' := fun _ => [some ⟨some c!"d/a.elm", false⟩]) (d := c!"d") (fun _ => .contents c!"x = 1") true rfl rfl rfl
example := C33_file (read := fun _ => .contents c!"x = 1") (isDir := fun _ => some false) (walk := fun _ => []) (p := c!"a.elm")
  (quiet := false) rfl (by simp)

end ElmParser
