import Verif.Model.Utf8
import Verif.Spec.Utf8

/-! Decoding UTF-8 is the inverse of encoding. -/
namespace ElmParser
open Spec

theorem char_range (c : Char) : c.toNat < 0xD800 ∨ (0xDFFF < c.toNat ∧ c.toNat < 0x110000) := by
  exact c.valid

theorem ofNat_toNat_char (c : Char) : Char.ofNat c.toNat = c := Char.ofNat_toNat c

theorem toNat_ofNat_char {n : Nat} (h : n < 0xD800 ∨ (0xDFFF < n ∧ n < 0x110000)) : (Char.ofNat n).toNat = n := by
  have hv : n.isValidChar := h
  simp [Char.ofNat, hv, Char.toNat, Char.ofNatAux]

theorem byte_toNat {n : Nat} (h : n < 256) : (UInt8.ofNat n).toNat = n := by
  simp [UInt8.toNat_ofNat', Nat.mod_eq_of_lt h]

theorem byte_ofNat {b : UInt8} {n : Nat} (h : b.toNat = n) : UInt8.ofNat n = b := by
  rw [← h]; simp

theorem byte_lt (b : UInt8) : b.toNat < 256 := b.toNat_lt

theorem decodeChar_utf8 (c : Char) (r : Bytes) : decodeChar (utf8Char c ++ r) = some (c, r) := by
  have hc := char_range c
  unfold utf8Char
  dsimp only
  split
  · next h =>
    have e := byte_toNat (n := c.toNat) (by omega)
    have w : charWidth (UInt8.ofNat c.toNat) = 1 := by rw [charWidth, e, if_pos h]
    simp only [List.cons_append, List.nil_append, decodeChar, w, e, ofNat_toNat_char]
  split
  · next h0 h =>
    have e0 := byte_toNat (n := 0xC0 + c.toNat / 64) (by omega)
    have e1 := byte_toNat (n := 0x80 + c.toNat % 64) (by omega)
    have w : charWidth (UInt8.ofNat (0xC0 + c.toNat / 64)) = 2 := by
      rw [charWidth, e0, if_neg (by omega), if_pos (by omega)]
    have k : isContinuation (UInt8.ofNat (0x80 + c.toNat % 64)) = true := by
      simp only [isContinuation, e1, decide_eq_true_eq]; omega
    simp only [List.cons_append, List.nil_append, decodeChar, w, k, if_true, e0, e1]
    rw [show (0xC0 + c.toNat / 64) % 32 * 64 + (0x80 + c.toNat % 64) % 64 = c.toNat by omega, ofNat_toNat_char]
  split
  · next h0 h1 h =>
    have e0 := byte_toNat (n := 0xE0 + c.toNat / 4096) (by omega)
    have e1 := byte_toNat (n := 0x80 + c.toNat / 64 % 64) (by omega)
    have e2 := byte_toNat (n := 0x80 + c.toNat % 64) (by omega)
    have w : charWidth (UInt8.ofNat (0xE0 + c.toNat / 4096)) = 3 := by
      rw [charWidth, e0, if_neg (by omega), if_neg (by omega), if_pos (by omega)]
    have k1 : isSecondOfThree (UInt8.ofNat (0xE0 + c.toNat / 4096)) (UInt8.ofNat (0x80 + c.toNat / 64 % 64)) = true := by
      simp only [isSecondOfThree, e0, e1, decide_eq_true_eq]; omega
    have k2 : isContinuation (UInt8.ofNat (0x80 + c.toNat % 64)) = true := by
      simp only [isContinuation, e2, decide_eq_true_eq]; omega
    simp only [List.cons_append, List.nil_append, decodeChar, w, k1, k2, Bool.and_self, if_true, e0, e1, e2]
    rw [show ((0xE0 + c.toNat / 4096) % 16 * 64 + (0x80 + c.toNat / 64 % 64) % 64) * 64 + (0x80 + c.toNat % 64) % 64 = c.toNat
      by omega, ofNat_toNat_char]
  · next h0 h1 h =>
    have e0 := byte_toNat (n := 0xF0 + c.toNat / 262144) (by omega)
    have e1 := byte_toNat (n := 0x80 + c.toNat / 4096 % 64) (by omega)
    have e2 := byte_toNat (n := 0x80 + c.toNat / 64 % 64) (by omega)
    have e3 := byte_toNat (n := 0x80 + c.toNat % 64) (by omega)
    have w : charWidth (UInt8.ofNat (0xF0 + c.toNat / 262144)) = 4 := by
      rw [charWidth, e0, if_neg (by omega), if_neg (by omega), if_neg (by omega), if_pos (by omega)]
    have k1 : isSecondOfFour (UInt8.ofNat (0xF0 + c.toNat / 262144)) (UInt8.ofNat (0x80 + c.toNat / 4096 % 64)) = true := by
      simp only [isSecondOfFour, e0, e1, decide_eq_true_eq]; omega
    have k2 : isContinuation (UInt8.ofNat (0x80 + c.toNat / 64 % 64)) = true := by
      simp only [isContinuation, e2, decide_eq_true_eq]; omega
    have k3 : isContinuation (UInt8.ofNat (0x80 + c.toNat % 64)) = true := by
      simp only [isContinuation, e3, decide_eq_true_eq]; omega
    simp only [List.cons_append, List.nil_append, decodeChar, w, k1, k2, k3, Bool.and_self, if_true, e0, e1, e2, e3]
    rw [show (((0xF0 + c.toNat / 262144) % 8 * 64 + (0x80 + c.toNat / 4096 % 64) % 64) * 64 + (0x80 + c.toNat / 64 % 64) % 64)
      * 64 + (0x80 + c.toNat % 64) % 64 = c.toNat by omega, ofNat_toNat_char]

theorem charWidth_cases (b : UInt8) :
    (charWidth b = 1 ∧ b.toNat < 0x80) ∨ (charWidth b = 2 ∧ 0xC2 ≤ b.toNat ∧ b.toNat ≤ 0xDF) ∨
    (charWidth b = 3 ∧ 0xE0 ≤ b.toNat ∧ b.toNat ≤ 0xEF) ∨ (charWidth b = 4 ∧ 0xF0 ≤ b.toNat ∧ b.toNat ≤ 0xF4) ∨
    (charWidth b = 0 ∧ (0x80 ≤ b.toNat ∧ b.toNat < 0xC2 ∨ 0xF4 < b.toNat)) := by
  unfold charWidth
  split
  · exact .inl ⟨rfl, by assumption⟩
  split
  · exact .inr (.inl ⟨rfl, by assumption⟩)
  split
  · exact .inr (.inr (.inl ⟨rfl, by assumption⟩))
  split
  · exact .inr (.inr (.inr (.inl ⟨rfl, by assumption⟩)))
  · exact .inr (.inr (.inr (.inr ⟨rfl, by omega⟩)))

theorem utf8_decodeChar {b r : Bytes} {c : Char} (h : decodeChar b = some (c, r)) : b = utf8Char c ++ r := by
  cases b with
  | nil => simp [decodeChar] at h
  | cons b0 t =>
    rcases charWidth_cases b0 with ⟨w, h0⟩ | ⟨w, h0⟩ | ⟨w, h0⟩ | ⟨w, h0⟩ | ⟨w, -⟩
    · simp only [decodeChar, w, Option.some.injEq, Prod.mk.injEq] at h
      obtain ⟨rfl, rfl⟩ := h
      have e := toNat_ofNat_char (n := b0.toNat) (by omega)
      simp only [utf8Char, e, if_pos h0, List.cons_append, List.nil_append]
      rw [byte_ofNat rfl]
    · match t, h with
      | [], h => simp [decodeChar, w] at h
      | b1 :: t, h =>
        simp only [decodeChar, w] at h
        split at h
        · next k =>
          simp only [isContinuation, decide_eq_true_eq] at k
          simp only [Option.some.injEq, Prod.mk.injEq] at h
          obtain ⟨rfl, rfl⟩ := h
          have e := toNat_ofNat_char (n := b0.toNat % 32 * 64 + b1.toNat % 64) (by omega)
          simp only [utf8Char, e]
          rw [if_neg (by omega), if_pos (by omega), byte_ofNat (b := b0) (by omega), byte_ofNat (b := b1) (by omega)]
          rfl
        · cases h
    · match t, h with
      | [], h => simp [decodeChar, w] at h
      | [_], h => simp [decodeChar, w] at h
      | b1 :: b2 :: t, h =>
        simp only [decodeChar, w] at h
        split at h
        · next k =>
          simp only [isContinuation, isSecondOfThree, Bool.and_eq_true, decide_eq_true_eq] at k
          simp only [Option.some.injEq, Prod.mk.injEq] at h
          obtain ⟨rfl, rfl⟩ := h
          have e := toNat_ofNat_char (n := (b0.toNat % 16 * 64 + b1.toNat % 64) * 64 + b2.toNat % 64) (by omega)
          simp only [utf8Char, e]
          rw [if_neg (by omega), if_neg (by omega), if_pos (by omega), byte_ofNat (b := b0) (by omega),
            byte_ofNat (b := b1) (by omega), byte_ofNat (b := b2) (by omega)]
          rfl
        · cases h
    · match t, h with
      | [], h => simp [decodeChar, w] at h
      | [_], h => simp [decodeChar, w] at h
      | [_, _], h => simp [decodeChar, w] at h
      | b1 :: b2 :: b3 :: t, h =>
        simp only [decodeChar, w] at h
        split at h
        · next k =>
          simp only [isContinuation, isSecondOfFour, Bool.and_eq_true, decide_eq_true_eq] at k
          simp only [Option.some.injEq, Prod.mk.injEq] at h
          obtain ⟨rfl, rfl⟩ := h
          have e := toNat_ofNat_char
            (n := ((b0.toNat % 8 * 64 + b1.toNat % 64) * 64 + b2.toNat % 64) * 64 + b3.toNat % 64) (by omega)
          simp only [utf8Char, e]
          rw [if_neg (by omega), if_neg (by omega), if_neg (by omega), byte_ofNat (b := b0) (by omega),
            byte_ofNat (b := b1) (by omega), byte_ofNat (b := b2) (by omega), byte_ofNat (b := b3) (by omega)]
          rfl
        · cases h
    · simp [decodeChar, w] at h

theorem utf8Char_length (c : Char) : 0 < (utf8Char c).length := by
  unfold utf8Char
  dsimp only
  repeat' split
  all_goals simp

theorem decodeN_utf8 (s : Str) : ∀ n, (utf8 s).length ≤ n → decodeN n (utf8 s) = some s := by
  induction s with
  | nil => intro n _; cases n <;> rfl
  | cons c s ih =>
    intro n hn
    have hp := utf8Char_length c
    simp only [utf8, List.flatMap_cons, List.length_append] at hn ⊢
    cases n with
    | zero => omega
    | succ n =>
      have hd := decodeChar_utf8 c (utf8 s)
      rw [utf8] at hd
      cases he : utf8Char c ++ s.flatMap utf8Char with
      | nil => simp [List.append_eq_nil_iff.1 he] at hp
      | cons b bs =>
        rw [he] at hd
        simp only [decodeN, hd]
        have := ih n (by rw [utf8]; omega)
        rw [utf8] at this
        rw [this]; rfl

theorem utf8_decodeN : ∀ n {b : Bytes} {s : Str}, decodeN n b = some s → b = utf8 s
  | n, [], s, h => by
    have : decodeN n [] = some [] := by cases n <;> rfl
    rw [this] at h; cases h; rfl
  | 0, b :: bs, s, h => by simp [decodeN] at h
  | n + 1, b :: bs, s, h => by
    simp only [decodeN] at h
    cases hd : decodeChar (b :: bs) with
    | none => rw [hd] at h; cases h
    | some q =>
      obtain ⟨c, r⟩ := q
      rw [hd] at h
      simp only [Option.map_eq_some_iff] at h
      obtain ⟨s', h1, rfl⟩ := h
      rw [utf8_decodeChar hd, utf8_decodeN n h1]; simp [utf8]

theorem decodeUtf8_iff {b : Bytes} {s : Str} : decodeUtf8 b = some s ↔ b = utf8 s :=
  ⟨utf8_decodeN _, fun h => by rw [h]; exact decodeN_utf8 s _ (Nat.le_refl _)⟩

theorem decodeArgs_iff : ∀ {as : List Bytes} {ss : List Str}, decodeArgs as = some ss ↔ as = ss.map utf8
  | [], ss => by simp only [decodeArgs, Option.some.injEq]; cases ss <;> simp
  | a :: as, ss => by
    simp only [decodeArgs]
    constructor
    · intro h
      split at h
      · next s ss' h1 h2 =>
        cases h
        rw [decodeUtf8_iff.1 h1, decodeArgs_iff.1 h2]; rfl
      · cases h
    · intro h
      cases ss with
      | nil => cases h
      | cons s ss =>
        simp only [List.map_cons, List.cons.injEq] at h
        rw [decodeUtf8_iff.2 h.1, decodeArgs_iff.2 h.2]

/-- Every byte of a character but the first is a continuation byte; the first is none, and none of those UTF-8 has no
use for. -/
theorem utf8Char_shape (c : Char) : ∃ b t, utf8Char c = b :: t ∧ isContinuation b = false ∧ (∀ x ∈ t, isContinuation x = true) ∧
    t.length < charWidth b ∧ t.length + 1 = charWidth b := by
  have hd := decodeChar_utf8 c []
  rw [List.append_nil] at hd
  cases h : utf8Char c with
  | nil => rw [h] at hd; cases hd
  | cons b0 t =>
    rw [h] at hd
    refine ⟨b0, t, rfl, ?_⟩
    have hb := byte_lt b0
    rcases charWidth_cases b0 with ⟨w, h0⟩ | ⟨w, h0⟩ | ⟨w, h0⟩ | ⟨w, h0⟩ | ⟨w, -⟩
    · simp only [decodeChar, w, Option.some.injEq, Prod.mk.injEq] at hd
      obtain ⟨-, rfl⟩ := hd
      refine ⟨by simp only [isContinuation, decide_eq_false_iff_not]; omega, by simp, by simp [w], by simp [w]⟩
    · match t, hd with
      | [], hd => simp [decodeChar, w] at hd
      | b1 :: t, hd =>
        simp only [decodeChar, w] at hd
        split at hd
        · next k =>
          simp only [Option.some.injEq, Prod.mk.injEq] at hd
          obtain ⟨-, rfl⟩ := hd
          exact ⟨by simp only [isContinuation, decide_eq_false_iff_not]; omega, by simp [k], by simp [w], by simp [w]⟩
        · cases hd
    · match t, hd with
      | [], hd => simp [decodeChar, w] at hd
      | [_], hd => simp [decodeChar, w] at hd
      | b1 :: b2 :: t, hd =>
        simp only [decodeChar, w] at hd
        split at hd
        · next k =>
          simp only [Option.some.injEq, Prod.mk.injEq] at hd
          obtain ⟨-, rfl⟩ := hd
          rw [Bool.and_eq_true] at k
          refine ⟨by simp only [isContinuation, decide_eq_false_iff_not]; omega, ?_, by simp [w], by simp [w]⟩
          have k1 := k.1
          simp only [isSecondOfThree, decide_eq_true_eq] at k1
          simp only [List.mem_cons, List.not_mem_nil, or_false, forall_eq_or_imp, forall_eq]
          exact ⟨by simp only [isContinuation, decide_eq_true_eq]; omega, k.2⟩
        · cases hd
    · match t, hd with
      | [], hd => simp [decodeChar, w] at hd
      | [_], hd => simp [decodeChar, w] at hd
      | [_, _], hd => simp [decodeChar, w] at hd
      | b1 :: b2 :: b3 :: t, hd =>
        simp only [decodeChar, w] at hd
        split at hd
        · next k =>
          simp only [Option.some.injEq, Prod.mk.injEq] at hd
          obtain ⟨-, rfl⟩ := hd
          rw [Bool.and_eq_true, Bool.and_eq_true] at k
          refine ⟨by simp only [isContinuation, decide_eq_false_iff_not]; omega, ?_, by simp [w], by simp [w]⟩
          have k1 := k.1.1
          simp only [isSecondOfFour, decide_eq_true_eq] at k1
          simp only [List.mem_cons, List.not_mem_nil, or_false, forall_eq_or_imp, forall_eq]
          exact ⟨by simp only [isContinuation, decide_eq_true_eq]; omega, k.1.2, k.2⟩
        · cases hd
    · simp [decodeChar, w] at hd

end ElmParser
