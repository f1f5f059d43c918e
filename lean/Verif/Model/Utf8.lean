import Verif.Model.Binaries

/-! The bytes of files and of arguments, as src/check.rs and src/dump.rs see them through the standard library of Rust
(external): `Read::read_to_string` and `env::args` decode UTF-8. -/
namespace ElmParser

abbrev Bytes := List UInt8

/-- `next!() as i8 >= -64` of `core::str::validations::run_utf8_validation`, negated: a continuation byte. -/
def isContinuation (b : UInt8) : Bool := 0x80 ≤ b.toNat ∧ b.toNat ≤ 0xBF

/-- `run_utf8_validation`: the second byte of a character of three bytes, after its first byte. -/
def isSecondOfThree (b0 b1 : UInt8) : Bool :=
  let x := b0.toNat
  let y := b1.toNat
  (x = 0xE0 ∧ 0xA0 ≤ y ∧ y ≤ 0xBF) ∨ (0xE1 ≤ x ∧ x ≤ 0xEC ∧ 0x80 ≤ y ∧ y ≤ 0xBF) ∨
    (x = 0xED ∧ 0x80 ≤ y ∧ y ≤ 0x9F) ∨ (0xEE ≤ x ∧ x ≤ 0xEF ∧ 0x80 ≤ y ∧ y ≤ 0xBF)

/-- `run_utf8_validation`: the second byte of a character of four bytes, after its first byte. -/
def isSecondOfFour (b0 b1 : UInt8) : Bool :=
  let x := b0.toNat
  let y := b1.toNat
  (x = 0xF0 ∧ 0x90 ≤ y ∧ y ≤ 0xBF) ∨ (0xF1 ≤ x ∧ x ≤ 0xF3 ∧ 0x80 ≤ y ∧ y ≤ 0xBF) ∨ (x = 0xF4 ∧ 0x80 ≤ y ∧ y ≤ 0x8F)

/-- `utf8_char_width`: the number of bytes of a character, by its first byte; 0 for a byte that starts none. -/
def charWidth (b : UInt8) : Nat :=
  if b.toNat < 0x80 then 1
  else if 0xC2 ≤ b.toNat ∧ b.toNat ≤ 0xDF then 2
  else if 0xE0 ≤ b.toNat ∧ b.toNat ≤ 0xEF then 3
  else if 0xF0 ≤ b.toNat ∧ b.toNat ≤ 0xF4 then 4
  else 0

/-- The first character and the bytes after it: the checks of `run_utf8_validation`, then `next_code_point`, which joins
the low bits of the bytes. -/
def decodeChar : Bytes → Option (Char × Bytes)
  | [] => none
  | b0 :: t =>
    match charWidth b0, t with
    | 1, r => some (Char.ofNat b0.toNat, r)
    | 2, b1 :: r =>
      if isContinuation b1 then some (Char.ofNat (b0.toNat % 32 * 64 + b1.toNat % 64), r) else none
    | 3, b1 :: b2 :: r =>
      if isSecondOfThree b0 b1 && isContinuation b2 then
        some (Char.ofNat ((b0.toNat % 16 * 64 + b1.toNat % 64) * 64 + b2.toNat % 64), r)
      else none
    | 4, b1 :: b2 :: b3 :: r =>
      if isSecondOfFour b0 b1 && isContinuation b2 && isContinuation b3 then
        some (Char.ofNat (((b0.toNat % 8 * 64 + b1.toNat % 64) * 64 + b2.toNat % 64) * 64 + b3.toNat % 64), r)
      else none
    | _, _ => none

/-- `str::from_utf8`, with at most `n` characters. -/
def decodeN : Nat → Bytes → Option Str
  | _, [] => some []
  | 0, _ => none
  | n + 1, b =>
    match decodeChar b with
    | none => none
    | some (c, r) => (decodeN n r).map (c :: ·)

/-- `str::from_utf8`: a character has at least one byte. -/
def decodeUtf8 (b : Bytes) : Option Str := decodeN b.length b

/-- src/check.rs:45-49 and src/dump.rs:21-25: `File::open` and `read_to_string`, for the bytes of the file, if there is one
that can be opened and read. -/
def readBytes : Option Bytes → Read
  | none => .failed
  | some b =>
    match decodeUtf8 b with
    | none => .failed
    | some s => .contents s

/-- `env::args().collect()`: a panic if an argument, used or not, is not UTF-8. -/
def decodeArgs : List Bytes → Option (List Str)
  | [] => some []
  | a :: as =>
    match decodeUtf8 a, decodeArgs as with
    | some s, some ss => some (s :: ss)
    | _, _ => none

/-- src/check.rs:35-60 `main`, on bytes. -/
def checkBytes (files : Str → Option Bytes) (args : List Bytes) : Outcome :=
  match decodeArgs args with
  | none => ⟨[], .panicked⟩
  | some as => checkMain (fun p => readBytes (files p)) as

/-- A directory entry as the file system has it: the bytes of its path. -/
structure RawEntry where
  path : Bytes
  isDir : Bool

/-- src/dump.rs:59 `to_str`. -/
def RawEntry.entry (e : RawEntry) : Entry := ⟨decodeUtf8 e.path, e.isDir⟩

/-- src/dump.rs:68-91 `main`, after clap, on bytes. -/
def dumpBytes (files : Str → Option Bytes) (isDir : Str → Option Bool) (walk : Str → List (Option RawEntry))
    (path : Option Str) (quiet : Bool) : Outcome :=
  dumpMain (fun p => readBytes (files p)) isDir (fun p => (walk p).map (Option.map RawEntry.entry)) path quiet

end ElmParser
