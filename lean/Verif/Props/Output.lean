import Verif.Proofs.DebugAst
import Verif.Props.Binaries

/-! Properties of the output of the two binaries: C41. -/
namespace ElmParser

theorem render_newline {st : Style} {x y : Dbg} {r r' : Str} (hx : x.Named) (hy : y.Named)
    (h : render st 0 x ++ '\n' :: r = render st 0 y ++ '\n' :: r') : x = y ∧ r = r' := by
  obtain ⟨h1, h2⟩ := render_inj x y hx hy (.inr ⟨_, _, rfl, .inr rfl⟩) (.inr ⟨_, _, rfl, .inr rfl⟩) h
  exact ⟨h1, (List.cons.inj h2).2⟩

theorem named_statements (sts : List Statement) : (Dbg.list (sts.map dbgStatement)).Named := by
  rw [Dbg.Named, namedAll_iff]
  intro x hx
  obtain ⟨s, -, rfl⟩ := List.mem_map.1 hx
  exact named_statement s

theorem msgText_tree {st : Style} {e e' : Str} {a b : List Statement} {r r' : Str}
    (h : msgText st e (.tree a) ++ r = msgText st e' (.tree b) ++ r') : a = b ∧ r = r' := by
  simp only [msgText, List.append_assoc, List.cons_append, List.nil_append] at h
  obtain ⟨h1, rfl⟩ := render_newline (named_statements a) (named_statements b) h
  exact ⟨map_inj dbgStatement_inj (Dbg.list.inj h1), rfl⟩

theorem msgText_ne (st : Style) (e : Str) (m : Msg) : msgText st e m ≠ [] := by
  cases m with
  | error f => cases f <;> simp [msgText]
  | _ => simp [msgText]

/-- Concatenations of texts that can be told apart. -/
theorem flatMap_inj {α : Type} {f : α → Str} {P : α → Prop} (hne : ∀ x, f x ≠ [])
    (hf : ∀ {x y : α} {r r' : Str}, P x → P y → f x ++ r = f y ++ r' → x = y ∧ r = r') {xs ys : List α}
    (hx : ∀ x ∈ xs, P x) (hy : ∀ y ∈ ys, P y) (h : xs.flatMap f = ys.flatMap f) : xs = ys := by
  induction xs generalizing ys with
  | nil =>
    cases ys with
    | nil => rfl
    | cons y ys =>
      rw [List.flatMap_cons, List.flatMap_nil] at h
      exact absurd (List.append_eq_nil_iff.1 h.symm).1 (hne y)
  | cons x xs ih =>
    cases ys with
    | nil =>
      rw [List.flatMap_cons, List.flatMap_nil] at h
      exact absurd (List.append_eq_nil_iff.1 h).1 (hne x)
    | cons y ys =>
      rw [List.flatMap_cons, List.flatMap_cons] at h
      obtain ⟨h1, h2⟩ := hf (hx x (by simp)) (hy y (by simp)) h
      rw [h1, ih (fun x h => hx x (List.mem_cons_of_mem _ h)) (fun x h => hy x (List.mem_cons_of_mem _ h)) h2]

/-- C41: the dumps of two files that parse are the same text exactly if the trees are the same. -/
theorem C41_file {st : Style} {e e' : Str} {read read' : Str → Read} {isDir isDir' : Str → Option Bool}
    {walk walk' : Str → List (Option Entry)} {p p' s s' : Str} {sts sts' : List Statement}
    (hd : isDir p = some false) (hd' : isDir' p' = some false)
    (hr : read p = .contents s) (hr' : read' p' = .contents s')
    (hs : file s = .ok sts []) (hs' : file s' = .ok sts' []) :
    stdout st e (dumpMain read isDir walk (some p) false) = stdout st e' (dumpMain read' isDir' walk' (some p') false) ↔
      sts = sts' := by
  have h1 : dumpMain read isDir walk (some p) false = ⟨[.tree sts], .code 0⟩ := by simp [dumpMain, hd, dumpFile, hr, hs]
  have h2 : dumpMain read' isDir' walk' (some p') false = ⟨[.tree sts'], .code 0⟩ := by
    simp [dumpMain, hd', dumpFile, hr', hs']
  rw [h1, h2]
  simp only [stdout, List.flatMap_cons, List.flatMap_nil]
  constructor
  · exact fun h => (msgText_tree h).1
  · rintro rfl; simp only [msgText]

/-- C41: the output of a run that prints trees determines them: how many there are, which, and in what order. -/
theorem C41_trees {st : Style} {e : Str} {o o' : Outcome} (ho : ∀ m ∈ o.out, ∃ sts, m = .tree sts)
    (ho' : ∀ m ∈ o'.out, ∃ sts, m = .tree sts) (h : stdout st e o = stdout st e o') : o.out = o'.out := by
  refine flatMap_inj (msgText_ne st e) ?_ ho ho' h
  rintro x y r r' ⟨a, rfl⟩ ⟨b, rfl⟩ h
  obtain ⟨rfl, rfl⟩ := msgText_tree h
  exact ⟨rfl, rfl⟩

/-- C41: the output of a quiet run determines the paths reported, their order, and which of them parse. -/
theorem C41_quiet {st : Style} {e : Str} {o o' : Outcome} (ho : ∀ m ∈ o.out, ∃ p, m = .parsed p ∨ m = .failed p)
    (ho' : ∀ m ∈ o'.out, ∃ p, m = .parsed p ∨ m = .failed p) (h : stdout st e o = stdout st e o') : o.out = o'.out := by
  refine flatMap_inj (msgText_ne st e) ?_ ho ho' h
  rintro x y r r' ⟨a, rfl | rfl⟩ ⟨b, rfl | rfl⟩ h <;> simp only [msgText, List.append_assoc] at h <;>
    obtain ⟨rfl, h'⟩ := strText_inj h
  · exact ⟨rfl, List.append_cancel_left h'⟩
  · simp at h'
  · simp at h'
  · exact ⟨rfl, List.append_cancel_left h'⟩

/-- C41: every message of a quiet run of the dumper is of that form. -/
theorem C41_quiet_run (read : Str → Read) (walk : List (Option Entry)) :
    ∀ m ∈ (dumpDirectory read true walk).out, ∃ p, m = .parsed p ∨ m = .failed p := by
  induction walk with
  | nil => intro m h; simp [dumpDirectory] at h
  | cons x walk ih =>
    cases x with
    | none => intro m h; simp [dumpDirectory] at h
    | some x =>
      by_cases ht : ∃ p, Target x p
      · obtain ⟨p, hp⟩ := ht
        rw [dumpDirectory_visit hp]
        cases hr : read p with
        | failed => rw [dumpFile_failed true hr]; intro m h; simp at h
        | contents s =>
          obtain ⟨m, h1, s, -, h2⟩ := dumpFile_readable true hr
          rw [h1]
          refine List.forall_mem_cons.2 ⟨⟨p, ?_⟩, ih⟩
          rcases h2 with ⟨_, -, h2⟩ | ⟨-, h2⟩
          · exact .inl h2
          · exact .inr h2
      · rw [dumpDirectory_skip fun p hp => ht ⟨p, hp⟩]
        exact ih

/-- C41: the output of the checker determines the list of imported names. -/
theorem C41_names {st : Style} {e e' : Str} {ns ns' : List Name}
    (h : msgText st e (.names ns) = msgText st e' (.names ns')) : ns = ns' := by
  simp only [msgText] at h
  exact dbgNames_inj (render_newline (named_names ns) (named_names ns') h).1

set_option maxRecDepth 20000 in
/-- The output for a small file, as current versions of Rust print it. -/
example : stdout ⟨true, true, false, fun _ => false⟩ [] (dumpMain (fun _ => .contents c!"import A exposing (f)\nx = \"a\\n\"\n")
    (fun _ => some false) (fun _ => []) (some c!"a.elm") false) = c!"[
    ImportStatement(
        [
            \"A\",
        ],
        None,
        Some(
            SubsetExport(
                [
                    FunctionExport(
                        \"f\",
                    ),
                ],
            ),
        ),
    ),
    Function(
        Function {
            signature: None,
            definition: FunctionDefinition {
                name: \"x\",
                args: [],
                body: String(
                    \"a\\\\n\",
                ),
            },
        },
    ),
]
" := rfl

/-- As older versions print it, and characters that need escapes. -/
example : render ⟨false, false, true, fun c => c.toNat == 0x301⟩ 0
    (dbgExpr (.List [.Character '\'', .String c!"\"́\t", .Integer c!"7"])) = c!"List(
    [
        Character(
            '\\''
        ),
        String(
            \"\\\"\\u{301}\\t\"
        ),
        Integer(
            \"7\"
        )
    ]
)" := rfl

example (st : Style) : stdout st [] (checkMain (fun _ => .contents c!"import A exposing (f, g)") [c!"check", c!"a.elm"]) =
    c!"[\n    " ++ strText st c!"f" ++ c!",\n    " ++ strText st c!"g" ++ commaAfter st true ++ c!"\n]\n" := by
  have : checkMain (fun _ => .contents c!"import A exposing (f, g)") [c!"check", c!"a.elm"] =
    ⟨[.names [c!"f", c!"g"]], .code 0⟩ := rfl
  rw [this]
  simp [stdout, msgText, dbgNames, render, renderItems, line, commaAfter]

/-- Two directories, one file of which parses and one of which does not. -/
example : stdout ⟨true, true, false, fun _ => false⟩ [] (dumpDirectory
    (fun p => if p = c!"a.elm" then .contents c!"x = 1" else .contents c!"x =") true
    [some ⟨some c!"a.elm", false⟩, some ⟨some c!"b.elm", false⟩]) =
    c!"\"a.elm\" parsed successfully\n\"b.elm\" failed to parse\n" := rfl
example := C41_file (st := ⟨true, true, false, fun _ => false⟩) (e := []) (e' := []) (read := fun _ => .contents c!"x = 1")
  (read' := fun _ => .contents c!"x  = 1") (isDir := fun _ => some false) (isDir' := fun _ => some false) (walk := fun _ => [])
  (walk' := fun _ => []) (p := c!"a.elm") (p' := c!"b.elm") rfl rfl rfl rfl rfl rfl
example := C41_trees (st := ⟨true, true, false, fun _ => false⟩) (e := []) (o := ⟨[.tree [.Comment c!"c"], .tree []], .code 0⟩)
  (o' := ⟨[.tree [.Comment c!"c"], .tree []], .panicked⟩) (by simp) (by simp) rfl
example := C41_quiet (st := ⟨true, true, false, fun _ => false⟩) (e := []) (o := ⟨[.parsed c!"a", .failed c!"b"], .code 0⟩)
  (o' := ⟨[.parsed c!"a", .failed c!"b"], .panicked⟩) (by simp) (by simp) rfl
example := C41_quiet_run (fun _ => .contents c!"x = 1") [some ⟨some c!"a.elm", false⟩] (.parsed c!"a.elm") (.head _)
example := C41_names (st := ⟨true, true, false, fun _ => false⟩) (e := []) (e' := c!"e") (ns := [c!"f"]) (ns' := [c!"f"]) rfl

end ElmParser
