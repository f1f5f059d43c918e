import Verif.Proofs.Utf8
import Verif.Props.Agree
import Verif.Props.Starts

/-! Properties of the programs on bytes: C67. -/
namespace ElmParser
open Spec

/-! ### C67 -/

/-- C67: a file is read as the text `s` iff its bytes are the UTF-8 encoding of `s`. -/
theorem C67_read (b : Bytes) (s : Str) : readBytes (some b) = .contents s ↔ b = utf8 s := by
  rw [← decodeUtf8_iff]
  simp only [readBytes]
  cases decodeUtf8 b <;> simp
@[inherit_doc C67_read]
theorem C67_unreadable (b : Bytes) : readBytes (some b) = .failed ↔ ∀ s, b ≠ utf8 s := by
  constructor
  · intro h s e
    rw [(C67_read b s).2 e] at h; cases h
  · intro h
    cases hr : readBytes (some b) with
    | failed => rfl
    | contents s => exact absurd ((C67_read b s).1 hr) (h s)

/-- C67: texts are determined by their bytes, also piece by piece. -/
theorem C67_prefix : ∀ {s t : Str} {b : Bytes}, utf8 s ++ b = utf8 t → ∃ u, t = s ++ u ∧ b = utf8 u
  | [], t, b, h => ⟨t, rfl, h⟩
  | c :: s, [], b, h => by
    have := utf8Char_length c
    have := congrArg List.length h
    simp only [utf8, List.flatMap_cons, List.flatMap_nil, List.length_append, List.length_nil] at this
    omega
  | c :: s, d :: t, b, h => by
    have e : decodeChar (utf8 (c :: s) ++ b) = decodeChar (utf8 (d :: t)) := by rw [h]
    rw [utf8, List.flatMap_cons, List.append_assoc, decodeChar_utf8, utf8, List.flatMap_cons, decodeChar_utf8] at e
    simp only [Option.some.injEq, Prod.mk.injEq] at e
    obtain ⟨rfl, e⟩ := e
    obtain ⟨u, rfl, hu⟩ := C67_prefix (s := s) (t := t) e
    exact ⟨u, rfl, hu⟩
@[inherit_doc C67_prefix]
theorem C67_injective {s t : Str} (h : utf8 s = utf8 t) : s = t := by
  have := (C67_read (utf8 s) t).2 h
  rw [(C67_read (utf8 s) s).2 rfl] at this
  cases this; rfl

/-- C67: a readable file that is cut off at any byte is readable iff the rest does not start with a continuation byte. -/
theorem C67_cut : ∀ {s : Str} {a b : Bytes}, utf8 s = a ++ b →
    ((∃ t, readBytes (some a) = .contents t) ↔ ∀ x ∈ b.head?, isContinuation x = false) := by
  intro s a b h
  simp only [C67_read]
  constructor
  · rintro ⟨t, rfl⟩ x hx
    obtain ⟨u, -, rfl⟩ := C67_prefix h.symm
    cases u with
    | nil => cases hx
    | cons c u =>
      obtain ⟨y, r, e, k, -⟩ := utf8Char_shape c
      simp only [utf8, List.flatMap_cons, e, List.cons_append, List.head?_cons, Option.mem_def, Option.some.injEq] at hx
      exact hx ▸ k
  · induction s generalizing a with
    | nil =>
      intro _
      exact ⟨[], (List.append_eq_nil_iff.1 h.symm).1⟩
    | cons c s ih =>
      intro hb
      rw [utf8, List.flatMap_cons] at h
      rcases List.append_eq_append_iff.1 h with ⟨a', rfl, e⟩ | ⟨b', e, rfl⟩
      · obtain ⟨t, rfl⟩ := ih e hb
        exact ⟨c :: t, rfl⟩
      · obtain ⟨y, r, e', -, k, -⟩ := utf8Char_shape c
        cases a with
        | nil => exact ⟨[], rfl⟩
        | cons z a =>
          cases b' with
          | nil =>
            refine ⟨[c], ?_⟩
            rw [utf8, List.flatMap_cons, e, List.append_nil, List.flatMap_nil, List.append_nil]
          | cons x b' =>
            rw [e', List.cons_append, List.cons.injEq] at e
            have := hb x rfl
            rw [k x (e.2 ▸ List.mem_append_right a (.head _))] at this
            cases this

/-- C67: a file with a byte UTF-8 has no use for, as every UTF-16 file with a byte order mark has, is not readable. -/
theorem C67_unused {b : Bytes} {x : UInt8} (hx : x ∈ b) (h : x.toNat = 0xC0 ∨ x.toNat = 0xC1 ∨ 0xF5 ≤ x.toNat) :
    readBytes (some b) = .failed := by
  rw [C67_unreadable]
  rintro s rfl
  obtain ⟨c, -, hc⟩ := List.mem_flatMap.1 hx
  obtain ⟨y, r, e, k, k1, k2, -⟩ := utf8Char_shape c
  rw [e] at hc
  rcases List.mem_cons.1 hc with rfl | hc
  · rcases charWidth_cases x with ⟨w, h0⟩ | ⟨w, h0⟩ | ⟨w, h0⟩ | ⟨w, h0⟩ | ⟨w, -⟩ <;> omega
  · have := k1 x hc
    simp only [isContinuation, decide_eq_true_eq] at this
    omega

/-- C67: a file of bytes below 128 is readable; its characters are its bytes. -/
theorem C67_ascii {b : Bytes} (h : ∀ x ∈ b, x.toNat < 128) :
    readBytes (some b) = .contents (b.map fun x => Char.ofNat x.toNat) := by
  rw [C67_read]
  induction b with
  | nil => rfl
  | cons x b ih =>
    have hx := h x (.head _)
    have e : utf8Char (Char.ofNat x.toNat) = [x] := by
      have e := toNat_ofNat_char (n := x.toNat) (by omega)
      simp only [utf8Char, e, if_pos hx]
      rw [byte_ofNat rfl]
    rw [List.map_cons, utf8, List.flatMap_cons, e, List.cons_append, List.nil_append]
    exact congrArg (x :: ·) (ih fun y hy => h y (.tail _ hy))

/-- C67: a file that starts with the UTF-8 byte order mark is not readable or not accepted. -/
theorem C67_bom {b : Bytes} {s : Str} (h : readBytes (some (0xEF :: 0xBB :: 0xBF :: b)) = .contents s) : file s = .err := by
  have h := (C67_read _ _).1 h
  have e : utf8 ['\uFEFF'] = [0xEF, 0xBB, 0xBF] := by decide
  obtain ⟨u, rfl, -⟩ := C67_prefix (s := ['\uFEFF']) (b := b) (t := s) (by rw [e]; exact h)
  exact C43_bom u

/-- C67: on arguments that are UTF-8, check does what C32 says, with files read as texts. -/
theorem C67_check (files : Str → Option Bytes) (args : List Str) :
    checkBytes files (args.map utf8) = checkMain (fun p => readBytes (files p)) args := by
  rw [checkBytes, decodeArgs_iff.2 rfl]
/-- C67: an argument that is not UTF-8, whether used or not, makes it panic with nothing printed. -/
theorem C67_check_args (files : Str → Option Bytes) {args : List Bytes} {a : Bytes} (ha : a ∈ args) (h : ∀ s, a ≠ utf8 s) :
    checkBytes files args = ⟨[], .panicked⟩ := by
  have : decodeArgs args = none := by
    cases hd : decodeArgs args with
    | none => rfl
    | some ss =>
      rw [decodeArgs_iff.1 hd] at ha
      obtain ⟨s, -, e⟩ := List.mem_map.1 ha
      exact absurd e.symm (h s)
  rw [checkBytes, this]
/-- C67: check on a file that exists: the names or the error for the text of which the file holds the bytes; or a panic, with
nothing printed, if there is no such text. -/
theorem C67_check_file (files : Str → Option Bytes) {prog f : Str} {b : Bytes} (more : List Str) (hf : files f = some b) :
    (∃ s sts, b = utf8 s ∧ file s = .ok sts [] ∧
      checkBytes files ((prog :: f :: more).map utf8) = ⟨[.names (getImportedNames sts)], .code 0⟩) ∨
    (∃ s, b = utf8 s ∧ file s = .err ∧ checkBytes files ((prog :: f :: more).map utf8) = ⟨[.error (failure s)], .code 0⟩) ∨
    ((∀ s, b ≠ utf8 s) ∧ checkBytes files ((prog :: f :: more).map utf8) = ⟨[], .panicked⟩) := by
  rw [C67_check]
  cases hr : readBytes (some b) with
  | contents s =>
    have hb := (C67_read b s).1 hr
    rcases C32_readable (read := fun p => readBytes (files p)) (prog := prog) (f := f) more (by rw [hf]; exact hr) with
      ⟨sts, h1, h2⟩ | ⟨h1, h2⟩
    · exact .inl ⟨s, sts, hb, h1, h2⟩
    · exact .inr (.inl ⟨s, hb, h1, h2⟩)
  | failed =>
    exact .inr (.inr ⟨(C67_unreadable b).1 hr, C32_unreadable (read := fun p => readBytes (files p)) more (by rw [hf]; exact hr)⟩)

/-- C67: dump on a file that exists. -/
theorem C67_dump_file (files : Str → Option Bytes) {isDir : Str → Option Bool} (walk : Str → List (Option RawEntry)) {f : Str}
    {b : Bytes} (quiet : Bool) (hd : isDir f = some false) (hf : files f = some b) :
    (∃ s sts, b = utf8 s ∧ file s = .ok sts [] ∧
      dumpBytes files isDir walk (some f) quiet = ⟨[if quiet then .parsed f else .tree sts], .code 0⟩) ∨
    (∃ s, b = utf8 s ∧ file s = .err ∧
      dumpBytes files isDir walk (some f) quiet = ⟨[if quiet then .failed f else .error (failure s)], .code 0⟩) ∨
    ((∀ s, b ≠ utf8 s) ∧ dumpBytes files isDir walk (some f) quiet = ⟨[], .panicked⟩) := by
  cases hr : readBytes (some b) with
  | contents s =>
    have hb := (C67_read b s).1 hr
    rcases (C01_file_total s).symm with ⟨sts, h1⟩ | h1
    · refine .inl ⟨s, sts, hb, h1, ?_⟩
      simp only [dumpBytes, dumpMain, hd, dumpFile, hf, hr, h1]
    · refine .inr (.inl ⟨s, hb, h1, ?_⟩)
      simp only [dumpBytes, dumpMain, hd, dumpFile, hf, hr, h1]
  | failed =>
    refine .inr (.inr ⟨(C67_unreadable b).1 hr, ?_⟩)
    simp only [dumpBytes, dumpMain, hd, dumpFile, hf, hr]

theorem dumpDirectory_nameless {read : Str → Read} {quiet : Bool} {e : Entry} (he : e.path = none) (ys : List (Option Entry)) :
    ∀ xs, dumpDirectory read quiet (xs ++ some e :: ys) = dumpDirectory read quiet (xs ++ ys)
  | [] => by
    simp only [List.nil_append, dumpDirectory, he]
    split <;> rfl
  | none :: xs => rfl
  | some x :: xs => by
    simp only [List.cons_append, dumpDirectory]
    rw [dumpDirectory_nameless he ys xs]

/-- C67: an entry of a directory whose name is not UTF-8 makes no difference. -/
theorem C67_dump_name (files : Str → Option Bytes) (isDir : Str → Option Bool) {walk walk' : Str → List (Option RawEntry)}
    {d : Str} {e : RawEntry} {xs ys : List (Option RawEntry)} (quiet : Bool) (he : ∀ s, e.path ≠ utf8 s)
    (h : walk d = xs ++ some e :: ys) (h' : walk' d = xs ++ ys) :
    dumpBytes files isDir walk (some d) quiet = dumpBytes files isDir walk' (some d) quiet := by
  have hp : e.entry.path = none := by
    cases hd : decodeUtf8 e.path with
    | none => exact hd
    | some s => exact absurd (decodeUtf8_iff.1 hd) (he s)
  simp only [dumpBytes, dumpMain, h, h', List.map_append, List.map_cons, Option.map_some, dumpDirectory_nameless hp]

/-! Cases. -/

example : readBytes (some [0x78, 0xC3, 0xA9, 0xE2, 0x82, 0xAC, 0xF0, 0x9F, 0x98, 0x80]) = .contents c!"xé€😀" := by rfl
example := (C67_read [0xC3, 0xA9] c!"é").2 (by decide)
/-- An overlong encoding, a surrogate, a number beyond the last character, a character cut short, and a continuation byte alone. -/
example : ∀ b ∈ [[0xC0, 0xAF], [0xE0, 0x80, 0xAF], [0xED, 0xA0, 0x80], [0xF4, 0x90, 0x80, 0x80], [0xE2, 0x82], [0x80]],
    decodeUtf8 b = none := by decide
/-- The text `x = "é"` in Latin-1. -/
theorem latin1_unreadable (s : Str) : [0x78, 0x20, 0x3D, 0x20, 0x22, 0xE9, 0x22] ≠ utf8 s :=
  (C67_unreadable _).1 rfl s
example := C67_check_file (fun _ => some [0x78, 0x20, 0x3D, 0x20, 0x22, 0xE9, 0x22]) (prog := c!"check") (f := c!"a.elm") [] rfl
example := C67_dump_file (fun _ => some [0x78, 0x20, 0x3D, 0x20, 0x22, 0xE9, 0x22]) (isDir := fun _ => some false) (fun _ => [])
  (f := c!"a.elm") true rfl rfl
example : checkBytes (fun _ => some (utf8 c!"import A exposing (f)")) [utf8 c!"check", utf8 c!"a.elm", [0x78, 0x20, 0x3D, 0x20, 0x22, 0xE9, 0x22]] =
    ⟨[], .panicked⟩ := C67_check_args _ (a := [0x78, 0x20, 0x3D, 0x20, 0x22, 0xE9, 0x22]) (by simp) latin1_unreadable
example : checkBytes (fun _ => some (utf8 c!"import A exposing (f)")) [utf8 c!"check", utf8 c!"a.elm"] =
    ⟨[.names [c!"f"]], .code 0⟩ := by rfl
example : readBytes (some [0xFF, 0xFE, 0x78, 0x00]) = .failed := C67_unused (x := 0xFF) (by simp) (by decide)
example := C67_ascii (b := [0x78, 0x20, 0x3D, 0x20, 0x31, 0x0A]) (by decide)
example := C67_bom (b := [0x78, 0x20, 0x3D, 0x20, 0x31]) (s := '\uFEFF' :: c!"x = 1") rfl
example := C67_cut (s := c!"x = \"€\"") (a := [0x78, 0x20, 0x3D, 0x20, 0x22, 0xE2]) (b := [0x82, 0xAC, 0x22]) (by decide)
example := C67_prefix (s := c!"é") (t := c!"é = 1") (b := [0x20, 0x3D, 0x20, 0x31]) (by decide)
example := C67_injective (s := c!"é") (t := c!"é") rfl
example := C67_dump_name (fun _ => some (utf8 c!"x = 1")) (fun _ => some true) (walk := fun _ => [some ⟨[0x78, 0x20, 0x3D, 0x20, 0x22, 0xE9, 0x22], false⟩, some ⟨utf8 c!"d/a.elm", false⟩])
  (walk' := fun _ => [some ⟨utf8 c!"d/a.elm", false⟩]) (d := c!"d") (xs := []) true latin1_unreadable rfl rfl

end ElmParser
