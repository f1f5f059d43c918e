import Verif.Props.Binaries

/-! The two binaries compared with each other, and runs over directories with runs over single files: C57. -/
namespace ElmParser

/-- What `elm-parser-dump [--quiet] p` does for a path that is not a directory. -/
abbrev dumpOne (read : Str → Read) (quiet : Bool) (p : Str) : Outcome :=
  dumpMain read (fun _ => some false) (fun _ => []) (some p) quiet

/-- Programs run one after the other, up to the first that does not end with status 0. -/
def inTurn : List Outcome → Outcome
  | [] => ⟨[], .code 0⟩
  | o :: os => if o.exit = .code 0 then ⟨o.out ++ (inTurn os).out, (inTurn os).exit⟩ else o

/-- What quiet mode says in place of a message on `p`. -/
inductive Quiet (p : Str) : Msg → Msg → Prop
  | parsed {sts} : Quiet p (.tree sts) (.parsed p)
  | failed {f} : Quiet p (.error f) (.failed p)

/-- One message of quiet mode for each message, for the paths in turn. -/
inductive QuietAll : List Str → List Msg → List Msg → Prop
  | nil {ps} : QuietAll ps [] []
  | cons {p ps m m' ms ms'} : Quiet p m m' → QuietAll ps ms ms' → QuietAll (p :: ps) (m :: ms) (m' :: ms')

/-- C57: for every path, readable or not, the three ways to run the programs agree: either dump prints a tree, check the
names it exposes and quiet mode says that the file was parsed; or dump and check print the same error and quiet mode says that
it failed; or all three panic without printing anything. -/
theorem C57_agree (read : Str → Read) (prog p : Str) (more : List Str) :
    (∃ sts, dumpOne read false p = ⟨[.tree sts], .code 0⟩ ∧ dumpOne read true p = ⟨[.parsed p], .code 0⟩ ∧
      checkMain read (prog :: p :: more) = ⟨[.names (sts.flatMap exposedFunctions)], .code 0⟩) ∨
    (∃ f, dumpOne read false p = ⟨[.error f], .code 0⟩ ∧ dumpOne read true p = ⟨[.failed p], .code 0⟩ ∧
      checkMain read (prog :: p :: more) = ⟨[.error f], .code 0⟩) ∨
    (dumpOne read false p = ⟨[], .panicked⟩ ∧ dumpOne read true p = ⟨[], .panicked⟩ ∧
      checkMain read (prog :: p :: more) = ⟨[], .panicked⟩) := by
  cases h : read p with
  | failed => exact .inr (.inr ⟨by simp [dumpMain, dumpFile, h], by simp [dumpMain, dumpFile, h], C32_unreadable more h⟩)
  | contents s =>
    rcases C32_readable (prog := prog) more h with ⟨sts, hs, hc⟩ | ⟨hs, hc⟩
    · rw [C30_file hs] at hc
      exact .inl ⟨sts, by simp [dumpMain, dumpFile, h, hs], by simp [dumpMain, dumpFile, h, hs], hc⟩
    · exact .inr (.inl ⟨_, by simp [dumpMain, dumpFile, h, hs], by simp [dumpMain, dumpFile, h, hs], hc⟩)

theorem dumpOne_eq (read : Str → Read) (quiet : Bool) (p : Str) : dumpOne read quiet p = match dumpFile read p quiet with
    | .error e => ⟨[], e⟩
    | .ok m => ⟨[m], .code 0⟩ := rfl

theorem dumpFile_not_code {read : Str → Read} {quiet : Bool} {p : Str} {e : Exit} (h : dumpFile read p quiet = .error e) :
    e = .panicked := by
  cases hr : read p with
  | failed => rw [dumpFile_failed quiet hr] at h; cases h; rfl
  | contents s => obtain ⟨m, hm, -⟩ := dumpFile_readable quiet hr; rw [hm] at h; cases h

/-- C57: the run over a directory is the runs over its targets, one after the other, up to the first that panics. -/
theorem C57_directory {read : Str → Read} {isDir : Str → Option Bool} {walk : Str → List (Option Entry)} {quiet : Bool}
    {d : Str} {ps : List Str} (hd : isDir d = some true) (ht : Targets (walk d) ps) :
    dumpMain read isDir walk (some d) quiet = inTurn (ps.map (dumpOne read quiet)) := by
  simp only [dumpMain, hd]
  revert ht
  generalize walk d = w
  intro ht
  induction ht with
  | done => rfl
  | error => rfl
  | skip hs _ ih => rw [dumpDirectory_skip hs, ih]
  | @visit e w p ps hv _ ih =>
    rw [dumpDirectory_visit hv, List.map_cons, inTurn, dumpOne_eq, ih]
    cases hf : dumpFile read p quiet with
    | error e => simp [dumpFile_not_code hf]
    | ok m => rfl

/-- C57: quiet mode says of each path whether its tree or an error is printed without it, and both ways the run ends alike. -/
theorem C57_quiet {read : Str → Read} {isDir : Str → Option Bool} {walk : Str → List (Option Entry)} {d : Str} {ps : List Str}
    (hd : isDir d = some true) (ht : Targets (walk d) ps) :
    QuietAll ps (dumpMain read isDir walk (some d) false).out (dumpMain read isDir walk (some d) true).out ∧
    (dumpMain read isDir walk (some d) false).exit = (dumpMain read isDir walk (some d) true).exit := by
  rw [C57_directory hd ht, C57_directory hd ht]
  clear ht
  induction ps with
  | nil => exact ⟨.nil, rfl⟩
  | cons p ps ih =>
    simp only [List.map_cons, inTurn]
    rcases C57_agree read [] p [] with ⟨sts, h1, h2, -⟩ | ⟨f, h1, h2, -⟩ | ⟨h1, h2, -⟩
    · rw [h1, h2]; exact ⟨.cons .parsed ih.1, ih.2⟩
    · rw [h1, h2]; exact ⟨.cons .failed ih.1, ih.2⟩
    · rw [h1, h2]; exact ⟨.nil, rfl⟩

/-- C57: a path that cannot be looked up ends dump before it prints anything, and without a path it does nothing. -/
theorem C57_missing {read : Str → Read} {isDir : Str → Option Bool} {walk : Str → List (Option Entry)} (quiet : Bool) {p : Str}
    (hd : isDir p = none) :
    dumpMain read isDir walk (some p) quiet = ⟨[], .panicked⟩ ∧ dumpMain read isDir walk none quiet = ⟨[], .code 0⟩ := by
  simp [dumpMain, hd]

/-- The file system of the examples: a file that parses, one that does not, and one that cannot be read. -/
def exampleRead : Str → Read := fun p =>
  if p = c!"d/a.elm" then .contents c!"import A exposing (f, T)" else if p = c!"d/b.elm" then .contents c!"x = )" else .failed

example : dumpOne exampleRead true c!"d/a.elm" = ⟨[.parsed c!"d/a.elm"], .code 0⟩ := rfl
example : checkMain exampleRead [c!"check", c!"d/a.elm"] = ⟨[.names [c!"f"]], .code 0⟩ := rfl
example : dumpOne exampleRead true c!"d/b.elm" = ⟨[.failed c!"d/b.elm"], .code 0⟩ := rfl
example : checkMain exampleRead [c!"check", c!"d/c.elm"] = ⟨[], .panicked⟩ := rfl

theorem exampleTarget {p : Str} (h : p = c!"a" ∨ p = c!"b" ∨ p = c!"c") :
    Target ⟨some (c!"d/" ++ p ++ c!".elm"), false⟩ (c!"d/" ++ p ++ c!".elm") := by
  refine ⟨rfl, rfl, c!"d/", p, [], by simp, ?_, ?_, .inr ⟨c!"d", rfl⟩, by simp⟩ <;> rcases h with rfl | rfl | rfl <;> decide

/-- A walk over a directory with the three files: the hypotheses of `C57_directory` and `C57_quiet` hold. -/
example : Targets [some ⟨some c!"d", true⟩, some ⟨some c!"d/a.elm", false⟩, some ⟨some c!"d/b.elm", false⟩, some ⟨none, false⟩,
    some ⟨some c!"d/c.elm", false⟩] [c!"d/a.elm", c!"d/b.elm", c!"d/c.elm"] :=
  .skip (fun p h => by cases h.1) (.visit (exampleTarget (.inl rfl)) (.visit (exampleTarget (.inr (.inl rfl)))
    (.skip (fun p h => by cases h.2.1) (.visit (exampleTarget (.inr (.inr rfl))) .done))))
example : inTurn ([c!"d/a.elm", c!"d/c.elm", c!"d/b.elm"].map (dumpOne exampleRead true)) = ⟨[.parsed c!"d/a.elm"], .panicked⟩ := rfl
/-- A directory with two files that can be read and one that cannot. -/
theorem exampleTargets : Targets [some ⟨some c!"d", true⟩, some ⟨some c!"d/a.elm", false⟩, some ⟨some c!"d/b.elm", false⟩,
    some ⟨none, false⟩, some ⟨some c!"d/c.elm", false⟩] [c!"d/a.elm", c!"d/b.elm", c!"d/c.elm"] :=
  .skip (fun p h => by cases h.1) (.visit (exampleTarget (.inl rfl)) (.visit (exampleTarget (.inr (.inl rfl)))
    (.skip (fun p h => by cases h.2.1) (.visit (exampleTarget (.inr (.inr rfl))) .done))))
example : dumpMain exampleRead (fun _ => some true) (fun _ => [some ⟨some c!"d", true⟩, some ⟨some c!"d/a.elm", false⟩,
      some ⟨some c!"d/b.elm", false⟩, some ⟨none, false⟩, some ⟨some c!"d/c.elm", false⟩]) (some c!"d") true =
    inTurn ([c!"d/a.elm", c!"d/b.elm", c!"d/c.elm"].map (dumpOne exampleRead true)) := C57_directory rfl exampleTargets
example := C57_quiet (read := exampleRead) (isDir := fun _ => some true) (walk := fun _ => _) (d := c!"d") rfl exampleTargets
example := C57_missing (read := exampleRead) (isDir := fun _ => none) (walk := fun _ => []) true (p := c!"e") rfl

end ElmParser
