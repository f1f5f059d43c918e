import Verif.Props.Chunks
import Verif.Props.Binaries

/-! C83: what the two programs print for a file in the usual layout is put together from what they print for its declarations. -/
namespace ElmParser
open Spec

theorem OneByOne.imp {α β : Type} {R S : α → β → Prop} (h : ∀ a b, R a b → S a b) {as : List α} {bs : List β}
    (hab : OneByOne R as bs) : OneByOne S as bs := by
  induction hab with
  | nil => exact .nil
  | cons h1 _ ih => exact .cons (h _ _ h1) ih

theorem OneByOne.map {α β γ : Type} {R : α → β → Prop} {S : α → γ → Prop} (g : β → γ) (h : ∀ a b, R a b → S a (g b))
    {as : List α} {bs : List β} (hab : OneByOne R as bs) : OneByOne S as (bs.map g) := by
  induction hab with
  | nil => exact .nil
  | cons h1 _ ih => exact .cons (h _ _ h1) ih

/-- What the checker prints for a text. -/
theorem check_ok {read : Str → Read} {prog f s : Str} {sts : List Statement} (more : List Str) (h : read f = .contents s)
    (hs : file s = .ok sts []) : checkMain read (prog :: f :: more) = ⟨[.names (getImportedNames sts)], .code 0⟩ := by
  rcases C32_readable (prog := prog) more h with ⟨sts', h1, h2⟩ | ⟨h1, -⟩
  · rw [hs] at h1; cases h1; exact h2
  · rw [hs] at h1; cases h1

theorem check_err {read : Str → Read} {prog f s : Str} (more : List Str) (h : read f = .contents s)
    (hs : file s = .err) : ∃ e, checkMain read (prog :: f :: more) = ⟨[.error e], .code 0⟩ := by
  rcases C32_readable (prog := prog) more h with ⟨sts', h1, -⟩ | ⟨-, h2⟩
  · rw [hs] at h1; cases h1
  · exact ⟨_, h2⟩

theorem names_flatten {R : Str → Statement → Prop} {cs : List Str} {zs : List Statement} (h : OneByOne R cs zs) :
    getImportedNames zs = (zs.map fun z => getImportedNames [z]).flatten := by
  induction h with
  | nil => rfl
  | @cons a b as bs _ _ ih =>
    rw [show b :: bs = [b] ++ bs from rfl, C31_append, ih]; rfl

/-- **C83.** If the checker prints names for each declaration alone, it prints for the whole file these names, in order.  If it
prints an error for one of them alone, it prints an error for the file. -/
theorem C83_check {read : Str → Read} {prog f : Str} (more : List Str) (p : Str) (ps : List (Nat × Str))
    (h : ∀ c ∈ p :: ps.map (·.2), Piece c) (hr : read f = .contents (p ++ rows ps)) :
    (∃ nss, OneByOne (fun c ns => checkMain (fun _ => .contents c) [prog, f] = ⟨[.names ns], .code 0⟩) (p :: ps.map (·.2)) nss ∧
      checkMain read (prog :: f :: more) = ⟨[.names nss.flatten], .code 0⟩) ∨
    (∃ c ∈ p :: ps.map (·.2), ∃ e, checkMain (fun _ => .contents c) [prog, f] = ⟨[.error e], .code 0⟩) ∧
      ∃ e, checkMain read (prog :: f :: more) = ⟨[.error e], .code 0⟩ := by
  rcases C01_file_total (p ++ rows ps) with e | ⟨zs, e⟩
  · obtain ⟨c, hc, he⟩ := (C82_refused p ps h).1 e
    exact .inr ⟨⟨c, hc, check_err (read := fun _ => .contents c) [] rfl he⟩, check_err more hr e⟩
  · have hz := (C82_file p ps h zs).1 e
    refine .inl ⟨zs.map fun z => getImportedNames [z], hz.map (fun z => getImportedNames [z]) fun c z hcz => check_ok (read := fun _ => .contents c) [] rfl hcz, ?_⟩
    rw [check_ok more hr e, names_flatten hz]

theorem noImport {c : Str} {x : Statement} (hp : Piece c) (h : file c = .ok [x] []) (hc : c!"import".isPrefixOf c = false) :
    getImportedNames [x] = [] := by
  rcases piece_cases hp with ⟨y, hy, hf⟩ | ⟨-, hbad⟩
  · have e := C78_join (y, c) [] (by simpa using ⟨hy, hf⟩)
    simp only [List.map_nil, rows, List.append_nil] at e
    rw [e] at h
    cases h
    rcases statement_sound hy with ⟨t, rfl, -⟩ | ⟨d, hd, hs⟩
    · rfl
    · rw [List.append_nil] at hd
      subst hd
      cases hs with
      | import_ => simp at hc
      | _ => rfl
  · have e := hbad [] (next_nil _) stmtStop_nil .nil
    rw [List.append_nil, h] at e
    cases e

theorem names_filter {cs : List Str} {zs : List Statement} (h : OneByOne (fun c x => file c = .ok [x] []) cs zs)
    (hp : ∀ c ∈ cs, Piece c) : ∃ ys, OneByOne (fun c x => file c = .ok [x] []) (cs.filter (c!"import".isPrefixOf ·)) ys ∧
      getImportedNames zs = getImportedNames ys := by
  induction h with
  | nil => exact ⟨[], .nil, rfl⟩
  | @cons c x cs zs h1 _ ih =>
    obtain ⟨ys, h2, h3⟩ := ih fun d hd => hp d (List.mem_cons_of_mem _ hd)
    have e : getImportedNames (x :: zs) = getImportedNames [x] ++ getImportedNames zs := C31_append [x] zs
    cases hc : c!"import".isPrefixOf c with
    | true =>
      refine ⟨x :: ys, ?_, ?_⟩
      · rw [List.filter_cons_of_pos (by simpa using hc)]; exact .cons h1 h2
      · rw [e, h3]; exact (C31_append [x] ys).symm
    | false =>
      refine ⟨ys, ?_, ?_⟩
      · rw [List.filter_cons_of_neg (by simp [hc])]; exact h2
      · rw [e, noImport (hp c (by simp)) h1 hc, h3]; rfl

theorem oneByOne_unique {cs : List Str} {xs ys : List Statement} (h : OneByOne (fun c x => file c = .ok [x] []) cs xs)
    (h' : OneByOne (fun c x => file c = .ok [x] []) cs ys) : xs = ys := by
  induction h generalizing ys with
  | nil => cases h'; rfl
  | cons h1 _ ih =>
    cases h' with
    | cons h2 h3 =>
      rw [h1] at h2
      cases h2
      rw [ih h3]

/-- **C83.** What the checker prints for a file without errors depends only on the declarations that begin with `import` and their
order: not on the other declarations, nor on where they stand, nor on blank lines. -/
theorem C83_imports {read : Str → Read} {prog f g : Str} (more : List Str) (p q : Str) (ps qs : List (Nat × Str))
    (h : ∀ c ∈ p :: ps.map (·.2), Piece c) (h' : ∀ c ∈ q :: qs.map (·.2), Piece c)
    (hi : (p :: ps.map (·.2)).filter (c!"import".isPrefixOf ·) = (q :: qs.map (·.2)).filter (c!"import".isPrefixOf ·))
    (hf : read f = .contents (p ++ rows ps)) (hg : read g = .contents (q ++ rows qs))
    (ha : file (p ++ rows ps) ≠ .err) (hb : file (q ++ rows qs) ≠ .err) :
    checkMain read (prog :: f :: more) = checkMain read (prog :: g :: more) := by
  obtain ⟨xs, ex⟩ := (C01_file_total _).resolve_left ha
  obtain ⟨ys, ey⟩ := (C01_file_total _).resolve_left hb
  obtain ⟨us, h1, h2⟩ := names_filter ((C82_file p ps h xs).1 ex) h
  obtain ⟨vs, h3, h4⟩ := names_filter ((C82_file q qs h' ys).1 ey) h'
  rw [hi] at h1
  rw [check_ok more hf ex, check_ok more hg ey, h2, h4, oneByOne_unique h1 h3]

/-- What the dumper prints for a text. -/
theorem dump_ok {read : Str → Read} {isDir : Str → Option Bool} (walk : Str → List (Option Entry)) {f s : Str} {quiet : Bool}
    {sts : List Statement} (hd : isDir f = some false) (h : read f = .contents s) (hs : file s = .ok sts []) :
    dumpMain read isDir walk (some f) quiet = ⟨[if quiet then .parsed f else .tree sts], .code 0⟩ := by
  simp only [dumpMain, hd, dumpFile, h, hs]

theorem dump_err {read : Str → Read} {isDir : Str → Option Bool} (walk : Str → List (Option Entry)) {f s : Str} {quiet : Bool}
    (hd : isDir f = some false) (h : read f = .contents s) (hs : file s = .err) :
    ∃ e, dumpMain read isDir walk (some f) quiet = ⟨[if quiet then .failed f else .error e], .code 0⟩ := by
  refine ⟨failure s, ?_⟩
  simp only [dumpMain, hd, dumpFile, h, hs]

/-- **C83.** If the dumper prints a tree for each declaration alone, it prints for the whole file the list of these.  If it prints
an error for one of them alone, it prints an error for the file. -/
theorem C83_dump {read : Str → Read} {isDir : Str → Option Bool} (walk : Str → List (Option Entry)) {f : Str} (p : Str)
    (ps : List (Nat × Str)) (h : ∀ c ∈ p :: ps.map (·.2), Piece c) (hd : isDir f = some false)
    (hr : read f = .contents (p ++ rows ps)) :
    (∃ zs, OneByOne (fun c z => dumpMain (fun _ => .contents c) isDir walk (some f) false = ⟨[.tree [z]], .code 0⟩)
        (p :: ps.map (·.2)) zs ∧ dumpMain read isDir walk (some f) false = ⟨[.tree zs], .code 0⟩) ∨
    (∃ c ∈ p :: ps.map (·.2), ∃ e, dumpMain (fun _ => .contents c) isDir walk (some f) false = ⟨[.error e], .code 0⟩) ∧
      ∃ e, dumpMain read isDir walk (some f) false = ⟨[.error e], .code 0⟩ := by
  rcases C01_file_total (p ++ rows ps) with e | ⟨zs, e⟩
  · obtain ⟨c, hc, he⟩ := (C82_refused p ps h).1 e
    exact .inr ⟨⟨c, hc, dump_err (read := fun _ => .contents c) (quiet := false) walk hd rfl he⟩,
      dump_err (quiet := false) walk hd hr e⟩
  · exact .inl ⟨zs, ((C82_file p ps h zs).1 e).imp fun c z hcz =>
      dump_ok (read := fun _ => .contents c) (quiet := false) walk hd rfl hcz, dump_ok (quiet := false) walk hd hr e⟩

/-- **C83.** With `--quiet` it says that the file was parsed exactly if it says so of each declaration alone. -/
theorem C83_quiet {read : Str → Read} {isDir : Str → Option Bool} (walk : Str → List (Option Entry)) {f : Str} (p : Str)
    (ps : List (Nat × Str)) (h : ∀ c ∈ p :: ps.map (·.2), Piece c) (hd : isDir f = some false)
    (hr : read f = .contents (p ++ rows ps)) :
    dumpMain read isDir walk (some f) true = ⟨[.parsed f], .code 0⟩ ↔
      ∀ c ∈ p :: ps.map (·.2), dumpMain (fun _ => .contents c) isDir walk (some f) true = ⟨[.parsed f], .code 0⟩ := by
  constructor
  · intro hq c hc
    rcases C01_file_total c with e | ⟨zs, e⟩
    · obtain ⟨e', h2⟩ := dump_err (quiet := true) walk hd hr ((C82_refused p ps h).2 ⟨c, hc, e⟩)
      rw [hq] at h2
      simp at h2
    · exact dump_ok (read := fun _ => .contents c) (quiet := true) walk hd rfl e
  · intro hq
    rcases C01_file_total (p ++ rows ps) with e | ⟨zs, e⟩
    · obtain ⟨c, hc, he⟩ := (C82_refused p ps h).1 e
      obtain ⟨e', h2⟩ := dump_err (read := fun _ => .contents c) (quiet := true) walk hd rfl he
      rw [hq c hc] at h2
      simp at h2
    · exact dump_ok (quiet := true) walk hd hr e

/-! ### Examples -/

theorem Assembled.ex_import : Piece c!"import A exposing (f, g)" :=
  .inr ⟨.ImportStatement [c!"A"] none (some (.SubsetExport [.FunctionExport c!"f", .FunctionExport c!"g"])), rfl, trivial⟩

theorem Assembled.ex_all {cs : List Str} (h : ∀ c ∈ cs, c = c!"import A exposing (f, g)" ∨ c = c!"port p : Int -> Int" ∨
    c = c!"main =\n    f x" ∨ c = c!"main =\n    if a then b") : ∀ c ∈ cs, Piece c := by
  intro c hc
  rcases h c hc with rfl | rfl | rfl | rfl
  · exact ex_import
  · exact Chunks.ex_port
  · exact Chunks.ex_good
  · exact Chunks.ex_bad

/-- A file that is accepted, and one that is not. -/
example := C83_check (read := fun _ => .contents (c!"import A exposing (f, g)" ++ rows [(1, c!"main =\n    f x")]))
  (prog := c!"check") (f := c!"a.elm") [] _ _ (Assembled.ex_all (by simp)) rfl
example : checkMain (fun _ => .contents (c!"import A exposing (f, g)" ++ rows [(1, c!"main =\n    f x")])) [c!"check", c!"a.elm"] =
    ⟨[.names [c!"f", c!"g"]], .code 0⟩ := rfl
example := C83_check (read := fun _ => .contents (c!"import A exposing (f, g)" ++ rows [(1, c!"main =\n    if a then b")]))
  (prog := c!"check") (f := c!"a.elm") [] _ _ (Assembled.ex_all (by simp)) rfl
/-- A definition in place of a port, before the import and with other blank lines. -/
example := C83_imports (prog := c!"check") (f := c!"a") (g := c!"b")
  (read := fun n => if n = c!"a" then .contents (c!"import A exposing (f, g)" ++ rows [(1, c!"port p : Int -> Int")])
    else .contents (c!"main =\n    f x" ++ rows [(3, c!"import A exposing (f, g)")])) []
  c!"import A exposing (f, g)" c!"main =\n    f x" [(1, c!"port p : Int -> Int")] [(3, c!"import A exposing (f, g)")]
  (Assembled.ex_all (by simp)) (Assembled.ex_all (by simp)) rfl rfl rfl (by intro h; cases h) (by intro h; cases h)
example := C83_dump (read := fun _ => .contents (c!"port p : Int -> Int" ++ rows [(1, c!"main =\n    f x")]))
  (isDir := fun _ => some false) (fun _ => []) (f := c!"a.elm") _ _ (Assembled.ex_all (by simp)) rfl rfl
example := C83_quiet (read := fun _ => .contents (c!"port p : Int -> Int" ++ rows [(1, c!"main =\n    if a then b")]))
  (isDir := fun _ => some false) (fun _ => []) (f := c!"a.elm") _ _ (Assembled.ex_all (by simp)) rfl rfl

end ElmParser
