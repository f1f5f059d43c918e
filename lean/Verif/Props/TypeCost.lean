import Verif.Props.Bound
import Verif.Proofs.StmtOrder

/-! C49: backtracking in types takes exponential time, too. -/
namespace ElmParser
open Spec

/-- C49: the parser of types with events gives the same results as the parser of types. -/
theorem C49_results (ind : Nat) (s : Str) :
    (Trace.type_ ind s).1 = type_ ind s ∧ (Trace.typeAnnotation ind s).1 = typeAnnotation ind s :=
  ⟨Trace.er_type ind s, Trace.er_typeAnnotation ind s⟩

namespace Trace
@[inherit_doc] local infixr:20 " </> " => alt
variable {α β γ : Type} {m : Event → Bool}

theorem cost_alt_err' {p q : TP α} {s : Str} (h : (p s).1 = .err) : num m (q s) ≤ num m ((p </> q) s) := by
  rw [cost_alt_err h]; exact Nat.le_add_left _ _

theorem cost_sepNonemptyList (sep : TP β) (p : TP α) (s : Str) : num m (p s) ≤ num m (sepNonemptyList sep p s) := by
  show _ ≤ num m (andThen (p s) _)
  cases p s with
  | mk x n =>
    cases x with
    | ok v r => exact Nat.le_trans (Nat.le_add_right _ _) (Nat.le_of_eq List.countP_append.symm)
    | err => exact Nat.le_refl _
    | panic => exact Nat.le_refl _
    | div => exact Nat.le_refl _

theorem cost_ann (ind : Nat) (s : Str) : num m (type_ ind s) ≤ num m (typeAnnotation ind s) := by
  rw [type_unfold, typeAnnotation_unfold]
  exact Nat.le_trans (cost_sepNonemptyList _ _ s) (cost_bind _ _ s)

theorem cost_mark (e : Event) (p : TP α) (s : Str) : num m (p s) ≤ num m (mark e p s) :=
  Nat.le_trans (Nat.le_add_right _ _) (Nat.le_of_eq List.countP_cons.symm)

/-- After an opening parenthesis that does not start a tuple, everything is parsed twice. -/
theorem cost_ty_paren {ind : Nat} {t : Str} (h : ∀ ts r, ElmParser.type_ ind ('(' :: t) ≠ .ok (.TypeTuple ts) r)
    (ht : NoGap t) : 2 * num m (type_ ind t) ≤ num m (type_ ind ('(' :: t)) := by
  have hg : (preceded (free (char '(')) (opt (free (gap ind .GTE))) ('(' :: t)).1 = .ok none t := by
    rw [er_preceded (er_free _) (er_opt (er_free _)) _, preceded_apply, char_cons, andThen_ok]
    exact opt_eq_ok.2 (.inr ⟨gap_none ht _ _, rfl, rfl⟩)
  have htup : ElmParser.typeTuple ElmParser.tyRec ind ('(' :: t) = .err := by
    rcases err_or_ok (fun k => (cons_typeTuple (goodRec_tyRec k) ind).mono (Nat.le_succ _)) ('(' :: t) with e | ⟨v, r, e, -⟩
    · exact e
    · have hv : ∃ ts, v = .TypeTuple ts := by
        unfold ElmParser.typeTuple at e
        obtain ⟨ts, -, rfl⟩ := pmap_eq_ok.1 e
        exact ⟨ts, rfl⟩
      obtain ⟨ts, rfl⟩ := hv
      refine absurd ?_ (h ts r)
      rw [ElmParser.type_unfold, typeF_paren.1, alt_apply, e]
      rfl
  conv => rhs; rw [type_unfold]
  unfold typeF
  refine Nat.le_trans ?_ (cost_mark _ _ _)
  refine Nat.le_trans ?_ (cost_alt_err' ((er_typeConstructorF er_tyRec ind _).trans (typeConstructorF_err (by decide))))
  refine Nat.le_trans ?_ (cost_alt_err' (typeVariable_err (by decide)))
  refine Nat.le_trans ?_ (cost_alt_err' ((er_typeRecordConstructor er_tyRec ind _).trans (typeRecordConstructor_err (by decide))))
  refine Nat.le_trans ?_ (cost_alt_err' ((er_typeRecord er_tyRec ind _).trans (typeRecord_err (by decide))))
  rw [cost_alt_err ((er_typeTuple er_tyRec ind _).trans htup), Nat.two_mul]
  refine Nat.add_le_add ?_ ?_
  · unfold typeTuple pmap delimited
    refine Nat.le_trans ?_ (cost_bind _ _ _)
    refine Nat.le_trans ?_ (cost_bind_ok _ hg)
    refine Nat.le_trans ?_ (cost_bind _ _ t)
    exact cost_sepList _ _ t
  · unfold typeParens delimited
    refine Nat.le_trans ?_ (cost_bind_ok _ hg)
    refine Nat.le_trans ?_ (cost_bind _ _ t)
    exact cost_ann ind t

end Trace

/-- C49: a call of `type_` counts, and `type_annotation` calls `type_` on the same text. -/
theorem C49_counts (ind : Nat) (s : Str) : 1 ≤ Trace.types (Trace.type_ ind s) ∧
    Trace.types (Trace.type_ ind s) ≤ Trace.types (Trace.typeAnnotation ind s) := by
  refine ⟨?_, Trace.cost_ann ind s⟩
  rw [Trace.type_unfold]
  exact Nat.le_trans (Nat.succ_le_succ (Nat.zero_le _))
    (Nat.le_of_eq (List.countP_cons_of_pos (p := (· == Trace.Event.ty)) (a := .ty) rfl).symm)

/-- C49: behind an opening parenthesis that does not start a tuple type everything is read twice. -/
theorem C49_twice {ind : Nat} {t : Str} (h : ∀ ts r, type_ ind ('(' :: t) ≠ .ok (.TypeTuple ts) r) (ht : NoGap t) :
    2 * Trace.types (Trace.type_ ind t) ≤ Trace.types (Trace.type_ ind ('(' :: t)) := Trace.cost_ty_paren h ht

/-- Functions taking functions: `a`, `(a -> a)`, `((a -> a) -> a)`, ... -/
def higher : Nat → Str
  | 0 => c!"a"
  | n + 1 => c!"(" ++ higher n ++ c!" -> a)"

/-- Their trees. -/
def higherTree : Nat → Ty
  | 0 => .TypeVariable c!"a"
  | n + 1 => .TypeApplication (higherTree n) (.TypeVariable c!"a")

theorem higher_src (ind n : Nat) : TySrc ind (.atom (higherTree n)) (higher n) := by
  have ha : TySrc ind (.atom (.TypeVariable c!"a")) c!"a" := .var ⟨'a', [], rfl, by decide, by decide⟩
  induction n with
  | zero => exact ha
  | succ n ih =>
    have := TySrc.parens (.inl rfl) (.tyAtom ih) spaceNl_space spaceNl_space (.annTy (.tyAtom ha)) (.inl rfl)
    simpa [higher, higherTree] using this

theorem higher_head (n : Nat) (r : Str) : NoGap (higher n ++ r) := by
  cases n <;> exact noGap_of_ne (by decide)

/-- C49: they are valid types. -/
theorem C49_higher_parse (ind n : Nat) : typeAnnotation ind (higher n) = .ok (higherTree n) [] := by
  have := typeAnnotation_complete (.annTy (.tyAtom (higher_src ind n))) (tyStop_nil ind)
  rwa [List.append_nil] at this

/-- C49: on the type of functions of order `n`, whatever follows, the parser calls `type_` at least 2ⁿ times. -/
theorem C49_higher (ind n : Nat) (r : Str) : 2 ^ n ≤ Trace.types (Trace.type_ ind (higher n ++ r)) := by
  induction n generalizing r with
  | zero => exact (C49_counts ind _).1
  | succ n ih =>
    have e : higher (n + 1) ++ r = '(' :: (higher n ++ (c!" -> a)" ++ r)) := by simp [higher]
    rw [Nat.pow_succ, Nat.mul_comm]
    refine Nat.le_trans (Nat.mul_le_mul_left 2 (ih (c!" -> a)" ++ r))) ?_
    rw [e]
    refine C49_twice (fun ts r' h => ?_) (higher_head n _)
    rw [← e, typeClosed_complete (higher_src ind (n + 1)) (by simp [higherTree]) r] at h
    cases h

/-- C49: on `n` opening parentheses, too. -/
theorem C49_parens (ind n : Nat) : 2 ^ n ≤ Trace.types (Trace.type_ ind (List.replicate n '(')) := by
  have herr : ∀ n, type_ ind (List.replicate n '(') = .err := by
    intro n
    induction n with
    | zero => rw [type_unfold]; rfl
    | succ n ih =>
      have hn : NoGap (List.replicate n '(') := by
        cases n with
        | zero => exact ⟨next_nil _, by simp⟩
        | succ n => exact noGap_of_ne (by decide)
      have hg : preceded (char '(') (opt (gap ind .GTE)) ('(' :: List.replicate n '(') = .ok none (List.replicate n '(') := by
        rw [preceded_apply, char_cons, andThen_ok]
        exact opt_eq_ok.2 (.inr ⟨gap_none hn _ _, rfl, rfl⟩)
      have hc : terminated (opt (gap ind .GTE)) (char ')') (List.replicate n '(') = .err := by
        rw [terminated_apply, opt_eq_ok.2 (.inr ⟨gap_none hn _ _, rfl, rfl⟩), andThen_ok]
        cases n <;> rfl
      rw [List.replicate_succ, type_unfold, typeF_paren.1, alt_apply]
      unfold typeTuple typeParens
      have hs : sepList (commaSep ind) (tyRec.type_ ind) (List.replicate n '(') = .ok [] (List.replicate n '(') :=
        sepList_comma_nil (fun k => cons_type_ k ind) ih
      rw [pmap_apply, delimited_apply, hg, andThen_ok, hs, andThen_ok, hc]
      show (Res.err).orElse _ = _
      rw [orElse_err, delimited_apply, hg, andThen_ok]
      have : tyRec.typeAnnotation ind (List.replicate n '(') = .err := typeAnnotation_err_iff.2 ih
      rw [this]
      rfl
  induction n with
  | zero => exact (C49_counts ind _).1
  | succ n ih =>
    rw [List.replicate_succ, Nat.pow_succ, Nat.mul_comm]
    refine Nat.le_trans (Nat.mul_le_mul_left 2 ih) (C49_twice (fun ts r h => ?_) ?_)
    · rw [← List.replicate_succ, herr] at h; cases h
    · cases n with
      | zero => exact ⟨next_nil _, by simp⟩
      | succ n => exact noGap_of_ne (by decide)

/-- C49: the number of calls is at most exponential in the length of the text. -/
theorem C49_bound (ind : Nat) (s : Str) : Trace.types (Trace.typeAnnotation ind s) ≤ 128 ^ s.length := by
  have h := (Trace.bd_typeAnnotation s.length ind s (Nat.le_refl _)).1
  rw [Nat.one_mul] at h
  exact Nat.le_trans List.countP_le_length h

/-- C49: for every length, the largest number of calls lies between 2ⁿ and 128ⁿ. -/
theorem C49_worst (ind n : Nat) : (∃ s : Str, s.length = n ∧ 2 ^ n ≤ Trace.types (Trace.typeAnnotation ind s)) ∧
    ∀ s : Str, s.length = n → Trace.types (Trace.typeAnnotation ind s) ≤ 128 ^ n := by
  refine ⟨⟨List.replicate n '(', by simp, Nat.le_trans (C49_parens ind n) (C49_counts ind _).2⟩, ?_⟩
  rintro s rfl
  exact C49_bound ind s

theorem higher_name (ind : Nat) : TySrc ind (.ty (.TypeConstructor [c!"T"] [])) c!"T" :=
  .con (ns := [c!"T"]) (cs := []) (by simp) (by simp only [List.mem_singleton, forall_eq]; exact ⟨'T', [], rfl, by decide, by decide⟩) .args0

/-- A file with the type of functions of order `n`. -/
def higherFile (n : Nat) : Str := c!"type alias T = " ++ higher n

/-- C49: it is a valid file. -/
theorem C49_file_parse (n : Nat) : file (higherFile n) =
    .ok [.TypeAliasDeclaration (.TypeConstructor [c!"T"] []) (higherTree n)] [] := by
  have h : StmtSrc True _ _ := .typeAlias (w1 := c!" ") (w2 := c!" ") (w3 := c!" ") ⟨by simp, by simp⟩ ⟨by simp, by simp⟩
    (higher_name 0) ⟨by simp, by simp⟩ (gapTxt_space 1 .GTE) (.annTy (.tyAtom (higher_src 1 n)))
  exact file_complete ⟨[], _, by simp [higherFile], by simp [Whites], .stmt h (.last (w := []) (by simp [Whites]))⟩

/-- C49: reading that file takes at least 2ⁿ calls of `type_`; its length is linear in `n`. -/
theorem C49_file (n : Nat) : 2 ^ n ≤ Trace.types (Trace.file (higherFile n)) ∧ (higherFile n).length = 16 + 7 * n := by
  constructor
  · have h0 : 2 ^ n ≤ Trace.types (Trace.typeAnnotation 1 (higher n)) := by
      have := C49_higher 1 n []
      rw [List.append_nil] at this
      exact Nat.le_trans this (C49_counts 1 _).2
    refine Nat.le_trans h0 ?_
    unfold Trace.types Trace.file Trace.statements Trace.terminated Trace.delimited
    refine Nat.le_trans ?_ (Trace.cost_bind _ _ _)
    refine Nat.le_trans ?_ (Trace.cost_bind_ok (v := []) (r := higherFile n) _ rfl)
    refine Nat.le_trans ?_ (Trace.cost_bind _ _ _)
    refine Nat.le_trans ?_ (Trace.cost_sepNonemptyList _ _ _)
    unfold Trace.statement
    refine Nat.le_trans ?_ (Trace.cost_alt_err' rfl)
    refine Nat.le_trans ?_ (Trace.cost_alt_err' rfl)
    refine Nat.le_trans ?_ (Trace.cost_alt_err' rfl)
    refine Nat.le_trans ?_ (Trace.cost_alt_err' rfl)
    refine Nat.le_trans ?_ (Trace.cost_alt _ _ _)
    unfold Trace.typeAliasDeclaration
    refine Nat.le_trans ?_ (Trace.cost_bind_ok (v := c!"type") (r := c!" alias T = " ++ higher n) _ rfl)
    refine Nat.le_trans ?_ (Trace.cost_bind_ok (v := c!" ") (r := c!"alias T = " ++ higher n) _ rfl)
    refine Nat.le_trans ?_ (Trace.cost_bind_ok (v := c!"alias") (r := c!" T = " ++ higher n) _ rfl)
    refine Nat.le_trans ?_ (Trace.cost_bind_ok (v := c!" ") (r := c!"T = " ++ higher n) _ rfl)
    refine Nat.le_trans ?_ (Trace.cost_bind_ok (r := c!" = " ++ higher n) _ ((Trace.er_type 0 _).trans (type_complete (higher_name 0)
      (tyStop_closer (g := c!" ") (c := '=') (r := c!" " ++ higher n) (.inr ⟨_, gapTxt_space 0 .GTE⟩) (by decide)))))
    refine Nat.le_trans ?_ (Trace.cost_bind_ok (v := c!" ") (r := c!"= " ++ higher n) _ rfl)
    refine Nat.le_trans ?_ (Trace.cost_bind_ok (v := '=') (r := c!" " ++ higher n) _ rfl)
    have hn := higher_head n []
    rw [List.append_nil] at hn
    refine Nat.le_trans ?_ (Trace.cost_bind_ok (r := higher n) _ ((gapTxt_space 1 .GTE).gap hn))
    exact Trace.cost_bind _ _ _
  · unfold higherFile
    have : (higher n).length = 1 + 7 * n := by
      induction n with
      | zero => rfl
      | succ n ih => simp [higher, ih]; omega
    simp [this]
    omega

/-- `(a -> b)` does not start a tuple. -/
example : 2 * Trace.types (Trace.type_ 0 c!"a -> b)") ≤ Trace.types (Trace.type_ 0 c!"(a -> b)") :=
  C49_twice (t := c!"a -> b)") (fun ts r h => by
    have e : type_ 0 c!"(a -> b)" = .ok (.TypeApplication (.TypeVariable c!"a") (.TypeVariable c!"b")) [] := rfl
    rw [e] at h; cases h) (noGap_of_ne (by decide))

/-- The counts for small cases. -/
example : Trace.types (Trace.type_ 0 (higher 3)) = 22 ∧ Trace.types (Trace.type_ 0 c!"(((") = 15 := ⟨rfl, rfl⟩

end ElmParser
