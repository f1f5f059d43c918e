import Verif.Model.Statements

/-! Model of the two binaries, src/check.rs and src/dump.rs.

The file system is an input: what reading a path gives, whether a path is a directory, and the
sequence of results a directory walk yields.  Output is a list of messages; how they
are rendered (`{:#?}`, `{:?}`) is in `Debug.lean`.  A panic (a failed `expect` or an index out of bounds) ends the program. -/
namespace ElmParser

/-- What opening and reading a file to a string gives; a failed `File::open` and a failed
`read_to_string` (also for bytes that are not UTF-8) are both followed by `expect`. -/
inductive Read where
  | contents (s : Str)
  | failed

/-- How a program ends. -/
inductive Exit where
  | code (n : Nat)
  | panicked
  /-- the parser does not return; excluded by C01 -/
  | diverged
  deriving DecidableEq, Repr

/-- The error value of a text that does not parse. -/
inductive Failure where
  /-- `Err::Error(Context::Code(CompleteStr(rest), ErrorKind::Eof))`: the error of `eof!` -/
  | eof (rest : Str)
  /-- an error of `statements`; its value is not modelled -/
  | other
  deriving DecidableEq, Repr

/-- src/ast/mod.rs:12-14: `terminated!` passes on the error of the parser that failed: of `statements`, or else of `eof!`,
whose error is at the text it is given. -/
def failure (s : Str) : Failure :=
  match statements s with
  | .ok _ rest => .eof rest
  | _ => .other

/-- One call of `println!`. -/
inductive Msg where
  /-- check.rs:39 -/
  | usage (prog : Str)
  /-- check.rs:56 -/
  | names (ns : List Name)
  /-- check.rs:58 and dump.rs:41 -/
  | error (f : Failure)
  /-- dump.rs:34 -/
  | tree (sts : List Statement)
  /-- dump.rs:32 -/
  | parsed (path : Str)
  /-- dump.rs:39 -/
  | failed (path : Str)

structure Outcome where
  out : List Msg
  exit : Exit

/-! ### src/check.rs -/

mutual
/-- src/check.rs:14-22 `get_export_set_imports`. -/
def getExportSetImports : ExportSet → List Name
  | .SubsetExport sub_sets => getExportSetImportsAll sub_sets
  | .FunctionExport name => [name]
  | _ => []
/-- src/check.rs:17: the `flat_map(get_export_set_imports)`. -/
def getExportSetImportsAll : List ExportSet → List Name
  | [] => []
  | e :: es => getExportSetImports e ++ getExportSetImportsAll es
end

/-- src/check.rs:24-33 `get_imported_names`. -/
def getImportedNames (ast : List Statement) : List Name :=
  ast.flatMap fun
    | .ImportStatement _ _ (some export_sets) => getExportSetImports export_sets
    | _ => []

/-- src/check.rs:35-60 `main`; `args` includes the program name. -/
def checkMain (read : Str → Read) (args : List Str) : Outcome :=
  if args.length < 2 then
    match args with
    | [] => ⟨[], .panicked⟩
    | prog :: _ => ⟨[.usage prog], .code 1⟩
  else
    match args[1]? with
    | none => ⟨[], .panicked⟩
    | some filename =>
      match read filename with
      | .failed => ⟨[], .panicked⟩
      | .contents contents =>
        match file contents with
        | .ok ast _ => ⟨[.names (getImportedNames ast)], .code 0⟩
        | .err => ⟨[.error (failure contents)], .code 0⟩
        | .panic => ⟨[], .panicked⟩
        | .div => ⟨[], .diverged⟩

/-! ### src/dump.rs -/

/-- src/dump.rs:20-45 `dump_file`: the message printed, or how the program ends. -/
def dumpFile (read : Str → Read) (filename : Str) (quiet : Bool) : Except Exit Msg :=
  match read filename with
  | .failed => .error .panicked
  | .contents contents =>
    match file contents with
    | .ok ast _ => .ok (if quiet then .parsed filename else .tree ast)
    | .err => .ok (if quiet then .failed filename else .error (failure contents))
    | .panic => .error .panicked
    | .div => .error .diverged

/-- The parts of a text between slashes. -/
def splitSlash : Str → List Str
  | [] => [[]]
  | c :: cs =>
    if c = '/' then [] :: splitSlash cs
    else match splitSlash cs with
      | [] => [[c]]
      | p :: ps => (c :: p) :: ps

/-- `std::path::Path::file_name` on Unix: the last component, leaving out empty ones and `.`, unless that is `..`. -/
def fileName (path : Str) : Option Str :=
  match ((splitSlash path).filter fun p => p ≠ [] ∧ p ≠ c!".").getLast? with
  | none => none
  | some p => if p = c!".." then none else some p

/-- `rsplitn(2, '.')`: the text before the last dot, if there is one, and the text after it. -/
def splitLastDot : Str → Option Str × Str
  | [] => (none, [])
  | c :: cs =>
    match splitLastDot cs with
    | (some b, a) => (some (c :: b), a)
    | (none, a) => if c = '.' then (some [], a) else (none, c :: a)

/-- `std::path::Path::extension`: what follows the last dot of the file name, unless nothing precedes it. -/
def extension (path : Str) : Option Str :=
  match fileName path with
  | none => none
  | some name =>
    match splitLastDot name with
    | (none, _) => none
    | (some [], _) => none
    | (some _, after) => some after

/-- A directory entry: its path, if that is UTF-8, and whether it is a directory. -/
structure Entry where
  path : Option Str
  isDir : Bool

/-- src/dump.rs:47-66 `dump_directory`.  The walk is the list of its results, `none` for an error.  The extension
of a path that is not UTF-8 does not matter since such an entry is skipped anyway. -/
def dumpDirectory (read : Str → Read) (quiet : Bool) : List (Option Entry) → Outcome
  | [] => ⟨[], .code 0⟩
  | none :: _ => ⟨[], .code 0⟩
  | some ent :: walk =>
    if ent.isDir then dumpDirectory read quiet walk
    else match ent.path with
      | none => dumpDirectory read quiet walk
      | some path =>
        if extension path ≠ some c!"elm" then dumpDirectory read quiet walk
        else match dumpFile read path quiet with
          | .error e => ⟨[], e⟩
          | .ok m =>
            let o := dumpDirectory read quiet walk
            ⟨m :: o.out, o.exit⟩

/-- src/dump.rs:68-91 `main`, after clap: `path` is the positional argument, `isDir` gives `none` when
`metadata` fails, `walk` what the directory walk yields. -/
def dumpMain (read : Str → Read) (isDir : Str → Option Bool) (walk : Str → List (Option Entry))
    (path : Option Str) (quiet : Bool) : Outcome :=
  match path with
  | none => ⟨[], .code 0⟩
  | some path =>
    match isDir path with
    | none => ⟨[], .panicked⟩
    | some true => dumpDirectory read quiet (walk path)
    | some false =>
      match dumpFile read path quiet with
      | .error e => ⟨[], e⟩
      | .ok m => ⟨[m], .code 0⟩

end ElmParser
