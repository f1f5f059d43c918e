import Verif.Model.Binaries

/-! Model of the directory walk of src/dump.rs:47-48, `WalkDir::new(path)` of walkdir 2.1.4 with its default options, over
a tree of files: first the directory itself, then for each of its entries, in the order of the operating system, the
entry and what is below it.  Links are not followed.  External code; no sources in /repo. -/
namespace ElmParser

mutual
/-- What a path leads to. -/
inductive Node where
  /-- anything that is neither a directory nor a link -/
  | file
  /-- a symbolic link, and whether `Path::is_dir`, which follows it, finds a directory -/
  | link (isDir : Bool)
  | dir (entries : DirList)
/-- What listing a directory gives. -/
inductive DirList where
  | done
  /-- `read_dir` fails, or reading an entry does -/
  | failed (rest : DirList)
  /-- an entry; the name is `none` if it is not UTF-8 -/
  | entry (name : Option Str) (node : Node) (rest : DirList)
end

/-- `Path::join` with a name. -/
def join (d name : Str) : Str :=
  if d = [] ∨ d.getLast? = some '/' then d ++ name else d ++ '/' :: name

/-- The path of an entry, if it is UTF-8. -/
def joinOpt : Option Str → Option Str → Option Str
  | some d, some name => some (join d name)
  | _, _ => none

mutual
/-- A node and what is below it. -/
def walkNode (path : Option Str) : Node → List (Option Entry)
  | .file => [some ⟨path, false⟩]
  | .link isDir => [some ⟨path, isDir⟩]
  | .dir es => some ⟨path, true⟩ :: walkEntries path es
/-- The entries of a directory and what is below them. -/
def walkEntries (path : Option Str) : DirList → List (Option Entry)
  | .done => []
  | .failed rest => none :: walkEntries path rest
  | .entry name node rest => walkNode (joinOpt path name) node ++ walkEntries path rest
end

/-- src/dump.rs:68-91 `main` for a directory `d` with the given entries. -/
def dumpTree (read : Str → Read) (quiet : Bool) (d : Str) (es : DirList) : Outcome :=
  dumpMain read (fun _ => some true) (fun d => walkNode (some d) (.dir es)) (some d) quiet

end ElmParser
