import Verif.Proofs.Scan
import Verif.Proofs.ScanPlain
import Verif.Spec.Blocks

/-! The marks of a text that the scanner accepts are nested. -/
namespace ElmParser
open Spec

/-- One mark, with what is open. -/
def markStep (k : List Char) (m : Str) : Option (List Char) :=
  if m ∈ blockWords then endWord true m k
  else match m with
    | [c] => if c ∈ ['(', '[', '{'] then some (c :: k) else
        match k with
        | [] => none
        | o :: k => if opener c = some o then some k else none
    | _ => none

/-- All marks. -/
def closesMarks : List Char → List Str → Bool
  | k, [] => k.isEmpty
  | k, m :: ms => match markStep k m with
    | none => false
    | some k => closesMarks k ms

/-- `m` opens what is written `o` on the stack. -/
def OpensMark (m : Str) (o : Char) : Prop :=
  (m = [o] ∧ o ∈ ['(', '[', '{']) ∨ (m = c!"let" ∧ o = 'l') ∨ (m = c!"case" ∧ o = 'c') ∨ (m = c!"if" ∧ o = 'i')

/-- `m` closes what is written `o` on the stack `o :: k` and leaves `k'`. -/
def EndsMark (o : Char) (m : Str) (k k' : List Char) : Prop :=
  (∃ c, m = [c] ∧ Partners o c ∧ k' = k) ∨ (o = 'l' ∧ m = c!"in" ∧ k' = k) ∨ (o = 'c' ∧ m = c!"of" ∧ k' = k) ∨
  (o = 'i' ∧ m = c!"then" ∧ k' = 't' :: k) ∨ (o = 't' ∧ m = c!"else" ∧ k' = k)

theorem opener_partners {o c : Char} (h : opener c = some o) : Partners o c := by
  unfold opener at h
  by_cases h1 : c = ')'
  · subst h1; cases h; decide
  by_cases h2 : c = ']'
  · subst h2; cases h; decide
  by_cases h3 : c = '}'
  · subst h3; cases h; decide
  rw [if_neg h1, if_neg h2, if_neg h3] at h
  cases h

theorem markStep_cases {k m k'} (h : markStep k m = some k') :
    (∃ o, OpensMark m o ∧ k' = o :: k) ∨ ∃ o k0, k = o :: k0 ∧ EndsMark o m k0 k' := by
  unfold markStep at h
  by_cases hm : m ∈ blockWords
  · rw [if_pos hm] at h
    unfold blockWords at hm
    simp only [List.mem_cons, List.not_mem_nil, or_false] at hm
    rcases hm with rfl | rfl | rfl | rfl | rfl | rfl | rfl
    · cases h; exact .inl ⟨'l', .inr (.inl ⟨rfl, rfl⟩), rfl⟩
    · cases k with
      | nil => cases h
      | cons o k =>
        by_cases ho : 'l' = o
        · subst ho; cases h
          exact .inr ⟨_, _, rfl, .inr (.inl ⟨rfl, rfl, rfl⟩)⟩
        · have : endWord true c!"in" (o :: k) = none := by
            show Option.map _ (if 'l' = o then _ else _) = none
            rw [if_neg ho]; rfl
          rw [this] at h; cases h
    · cases h; exact .inl ⟨'i', .inr (.inr (.inr ⟨rfl, rfl⟩)), rfl⟩
    · cases k with
      | nil => cases h
      | cons o k =>
        by_cases ho : 'i' = o
        · subst ho; cases h
          exact .inr ⟨_, _, rfl, .inr (.inr (.inr (.inl ⟨rfl, rfl, rfl⟩)))⟩
        · have : endWord true c!"then" (o :: k) = none := by
            show Option.map _ (if 'i' = o then _ else _) = none
            rw [if_neg ho]; rfl
          rw [this] at h; cases h
    · cases k with
      | nil => cases h
      | cons o k =>
        by_cases ho : 't' = o
        · subst ho; cases h
          exact .inr ⟨_, _, rfl, .inr (.inr (.inr (.inr ⟨rfl, rfl, rfl⟩)))⟩
        · have : endWord true c!"else" (o :: k) = none := by
            show Option.map _ (if 't' = o then _ else _) = none
            rw [if_neg ho]; rfl
          rw [this] at h; cases h
    · cases h; exact .inl ⟨'c', .inr (.inr (.inl ⟨rfl, rfl⟩)), rfl⟩
    · cases k with
      | nil => cases h
      | cons o k =>
        by_cases ho : 'c' = o
        · subst ho; cases h
          exact .inr ⟨_, _, rfl, .inr (.inr (.inl ⟨rfl, rfl, rfl⟩))⟩
        · have : endWord true c!"of" (o :: k) = none := by
            show Option.map _ (if 'c' = o then _ else _) = none
            rw [if_neg ho]; rfl
          rw [this] at h; cases h
  · rw [if_neg hm] at h
    split at h
    · rename_i c
      split at h
      · rename_i hc
        cases h; exact .inl ⟨c, .inl ⟨rfl, hc⟩, rfl⟩
      · split at h
        · cases h
        · split at h
          · rename_i ho
            cases h
            exact .inr ⟨_, _, rfl, .inl ⟨_, rfl, opener_partners ho, rfl⟩⟩
          · cases h
    · cases h

theorem closesMarks_aux : ∀ (n : Nat) (ms : List Str) (k : List Char), ms.length ≤ n → closesMarks k ms = true →
    match k with
    | [] => Blocks ms
    | o :: k => ∃ a m t k', ms = a ++ m :: t ∧ Blocks a ∧ EndsMark o m k k' ∧ closesMarks k' t = true := by
  intro n
  induction n with
  | zero =>
    intro ms k hs h
    cases ms with
    | nil => cases k with
      | nil => exact .nil
      | cons o k => cases h
    | cons c s => simp at hs
  | succ n ih =>
    intro ms k hs h
    cases ms with
    | nil => cases k with
      | nil => exact .nil
      | cons o k => cases h
    | cons m ms =>
      have hs' : ms.length ≤ n := by simp at hs; exact hs
      unfold closesMarks at h
      cases hm : markStep k m with
      | none => rw [hm] at h; cases h
      | some k1 =>
        rw [hm] at h
        change closesMarks k1 ms = true at h
        rcases markStep_cases hm with ⟨o, ho, rfl⟩ | ⟨o, k0, rfl, he⟩
        · -- a complete block `m :: pre`, and the rest
          obtain ⟨pre, t, e, ht, hl, hpre⟩ : ∃ pre t, ms = pre ++ t ∧ closesMarks k t = true ∧ t.length ≤ n ∧
              ∀ s, Blocks s → Blocks (m :: (pre ++ s)) := by
            obtain ⟨a, m', t, k', rfl, ha, he, ht⟩ := ih ms (o :: k) hs' h
            have hl : t.length ≤ n := by
              have := hs'; simp at this; omega
            rcases he with ⟨c, rfl, hp, rfl⟩ | ⟨rfl, rfl, rfl⟩ | ⟨rfl, rfl, rfl⟩ | ⟨rfl, rfl, rfl⟩ | ⟨rfl, rfl, rfl⟩
            · have : m = [o] := by
                rcases ho with ⟨h, -⟩ | ⟨-, rfl⟩ | ⟨-, rfl⟩ | ⟨-, rfl⟩
                · exact h
                all_goals
                  unfold Partners at hp
                  simp at hp
              subst this
              exact ⟨a ++ [[c]], t, by simp, ht, hl, fun s hs => by simpa using Blocks.bracket hp ha hs⟩
            · have : m = c!"let" := by
                rcases ho with ⟨-, h⟩ | ⟨h, -⟩ | ⟨-, h⟩ | ⟨-, h⟩
                · exact absurd h (by decide)
                · exact h
                all_goals exact absurd h (by decide)
              subst this
              exact ⟨a ++ [c!"in"], t, by simp, ht, hl, fun s hs => by simpa using Blocks.let_ ha hs⟩
            · have : m = c!"case" := by
                rcases ho with ⟨-, h⟩ | ⟨-, h⟩ | ⟨h, -⟩ | ⟨-, h⟩
                · exact absurd h (by decide)
                · exact absurd h (by decide)
                · exact h
                · exact absurd h (by decide)
              subst this
              exact ⟨a ++ [c!"of"], t, by simp, ht, hl, fun s hs => by simpa using Blocks.case_ ha hs⟩
            · have : m = c!"if" := by
                rcases ho with ⟨-, h⟩ | ⟨-, h⟩ | ⟨-, h⟩ | ⟨h, -⟩
                · exact absurd h (by decide)
                · exact absurd h (by decide)
                · exact absurd h (by decide)
                · exact h
              subst this
              obtain ⟨b, m'', u, k'', rfl, hb, he, hu⟩ := ih t ('t' :: k) hl ht
              have hl' : u.length ≤ n := by
                have := hl; simp at this; omega
              rcases he with ⟨c, -, hp, -⟩ | ⟨h, -, -⟩ | ⟨h, -, -⟩ | ⟨h, -, -⟩ | ⟨-, rfl, rfl⟩
              · unfold Partners at hp; simp at hp
              · exact absurd h (by decide)
              · exact absurd h (by decide)
              · exact absurd h (by decide)
              · exact ⟨a ++ c!"then" :: (b ++ [c!"else"]), u, by simp, hu, hl', fun s hs => by simpa using Blocks.if_ ha hb hs⟩
            · rcases ho with ⟨-, h⟩ | ⟨-, h⟩ | ⟨-, h⟩ | ⟨-, h⟩ <;> exact absurd h (by decide)
          subst e
          cases k with
          | nil => exact hpre t (ih t [] hl ht)
          | cons o' k =>
            obtain ⟨a, m', t', k', rfl, ha, he, ht'⟩ := ih t (o' :: k) hl ht
            exact ⟨m :: (pre ++ a), m', t', k', by simp, hpre a ha, he, ht'⟩
        · exact ⟨[], m, ms, k1, rfl, .nil, he, h⟩

theorem closesMarks_blocks {ms : List Str} (h : closesMarks [] ms = true) : Blocks ms :=
  closesMarks_aux ms.length ms [] (Nat.le_refl _) h

theorem closesMarks_word {w k k1 ms} (h : endWord true w k = some k1) (hs : closesMarks k1 ms = true) :
    closesMarks k (markWord w ++ ms) = true := by
  unfold markWord
  by_cases hw : w ∈ blockWords
  · rw [if_pos hw]
    show (match markStep k w with | none => false | some k => closesMarks k ms) = true
    unfold markStep
    rw [if_pos hw, h]
    exact hs
  · rw [if_neg hw]
    have := plain_word_of (kw := true) hw k
    rw [this] at h
    cases h
    exact hs

theorem closesMarks_stack {k x k' ms} (h : Stack k x k') (hs : closesMarks k' ms = true) :
    closesMarks k ((if Bracket x then [[x]] else []) ++ ms) = true := by
  have hb : [x] ∉ blockWords := by
    intro h
    unfold blockWords at h
    simp at h
  rcases h with ⟨h, rfl⟩ | ⟨h, o, ho, rfl⟩ | ⟨h, ho, rfl⟩
  · have : Bracket x := by
      simp only [List.mem_cons, List.not_mem_nil, or_false] at h
      rcases h with rfl | rfl | rfl <;> decide
    rw [if_pos this]
    show (match markStep k [x] with | none => false | some k => closesMarks k ms) = true
    unfold markStep
    rw [if_neg hb]
    simp only [if_pos h]
    exact hs
  · have : Bracket x := by
      have := opener_partners ho
      unfold Partners at this
      simp only [List.mem_cons, List.not_mem_nil, or_false, Prod.mk.injEq] at this
      rcases this with ⟨-, rfl⟩ | ⟨-, rfl⟩ | ⟨-, rfl⟩ <;> decide
    rw [if_pos this]
    show (match markStep (o :: k') [x] with | none => false | some k => closesMarks k ms) = true
    unfold markStep
    rw [if_neg hb]
    simp only [if_neg h, if_pos ho]
    exact hs
  · have : ¬ Bracket x := by
      intro hb
      unfold Bracket at hb
      simp only [List.mem_cons, List.not_mem_nil, or_false] at hb
      rcases hb with rfl | rfl | rfl | rfl | rfl | rfl <;> first | exact h (by decide) | (cases ho; done)
    rw [if_neg this]
    exact hs

/-- The characters of the word just read. -/
def wordOf : Pos → Str
  | .word w => w
  | _ => []

theorem wordOf_nil {p} (h : ∀ w, p ≠ .word w) : wordOf p = [] := by
  cases p <;> first | rfl | exact absurd rfl (h _)

theorem ended_word {p k k1} (h : ended true p k = some k1) : endWord true (wordOf p) k = some k1 := by
  cases p <;> exact h

theorem scansWords_blocks {s : Str} (hb : Bare s) (h : scansWords s = true) : Blocks (marks s) := by
  refine closesMarks_blocks (plain_induct (kw := true) (B := True) (M := fun p k s => closesMarks k (marksFrom (wordOf p) s) = true)
    ?_ ?_ (y := none) (p := .gap) (k := []) nofun (fun h => absurd trivial h) (fun h => absurd trivial h)
    (noDash_of hb.line hb.block) hb.string hb.char h).1
  · intro p k h
    have h' : endWord true (wordOf p) k = some [] := by
      cases p with
      | word w => exact beq_iff_eq.1 h
      | _ =>
        cases k with
        | nil => rfl
        | cons o k => cases h
    have := closesMarks_word (ms := []) h' rfl
    rwa [List.append_nil] at this
  · intro y p k x p' k' s hm hs
    rcases hm with ⟨w, rfl, hi, rfl, rfl⟩ | ⟨k1, h1, h2, h3⟩
    · show closesMarks k' (if IdentChar x then _ else _) = true
      rw [if_pos hi]; exact hs
    · show closesMarks k (if IdentChar x then _ else _) = true
      by_cases hi : IdentChar x
      · rw [if_pos hi]
        have hp := wordOf_nil (h3 hi)
        have e := h2.word hi
        subst e
        have h1' := ended_word h1
        rw [hp] at h1' ⊢
        cases h1'
        have := h2.stack
        rcases this with ⟨h, -⟩ | ⟨-, o, h, -⟩ | ⟨-, -, rfl⟩
        · exact absurd hi (open_notOp h).2.1
        · refine absurd hi (closer_notIdent ?_)
          have := opener_partners h
          unfold Partners at this
          simp only [List.mem_cons, List.not_mem_nil, or_false, Prod.mk.injEq] at this
          rcases this with ⟨-, rfl⟩ | ⟨-, rfl⟩ | ⟨-, rfl⟩ <;> decide
        · exact hs
      · rw [if_neg hi]
        have hp := wordOf_nil (h2.noWord hi)
        rw [hp] at hs
        exact closesMarks_word (ended_word h1) (closesMarks_stack h2.stack hs)

end ElmParser
