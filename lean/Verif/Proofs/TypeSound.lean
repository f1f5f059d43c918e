import Verif.Proofs.Steps

/-! Every type the parser returns comes from a text of the grammar `TySrc`. -/
namespace ElmParser
open Spec

theorem char_ne_nil {c d : Char} {s r : Str} (h : char c s = .ok d r) : s ≠ [] := by
  rw [(char_eq_ok.1 h).2]; simp
theorem tag_ne_nil {c : Char} {t v s r : Str} (h : tag (c :: t) s = .ok v r) : s ≠ [] := by
  rw [(tag_eq_ok.1 h).2]; simp

/-- Inversion of the comma separator. -/
theorem commaSep_of_ok {ind : Nat} {s r : Str} {c : Char} (h : commaSep ind s = .ok c r)
    (hr : r ≠ []) :
    ∃ g1 g2, s = g1 ++ c!"," ++ g2 ++ r ∧ OptGapTxt ind .GTE g1 ∧ OptGapTxt ind .GTE g2 := by
  unfold commaSep at h
  obtain ⟨a, r1, r2, b, h1, h2, h3⟩ := delimited_eq_ok.1 h
  obtain ⟨g1, rfl, hg1⟩ := optGap_of_ok h1 (char_ne_nil h2)
  obtain ⟨-, rfl⟩ := char_eq_ok.1 h2
  obtain ⟨g2, rfl, hg2⟩ := optGap_of_ok h3 hr
  exact ⟨g1, g2, by simp, hg1, hg2⟩

/-- Inversion of a bracketed construct with optional gaps inside. -/
theorem bracket_of_ok {α : Type} {o c : Char} {ind : Nat} {p : Parser α} {s r : Str} {v : α}
    (h : delimited (preceded (char o) (opt (gap ind .GTE))) p
      (terminated (opt (gap ind .GTE)) (char c)) s = .ok v r) :
    ∃ s1 r1, char o s = .ok o s1 ∧ ∃ o2 s2, opt (gap ind .GTE) s1 = .ok o2 s2 ∧ p s2 = .ok v r1 ∧
      ∃ g2, r1 = g2 ++ c :: r ∧ OptGapTxt ind .GTE g2 := by
  obtain ⟨a, r1, r2, b, h1, h2, h3⟩ := delimited_eq_ok.1 h
  obtain ⟨x, s1, h4, h5⟩ := preceded_eq_ok.1 h1
  obtain ⟨t1, w, h6, h7⟩ := terminated_eq_ok.1 h3
  obtain ⟨g2, rfl, hg2⟩ := optGap_of_ok h6 (char_ne_nil h7)
  obtain ⟨-, rfl⟩ := char_eq_ok.1 h7
  refine ⟨s1, _, ?_, a, r1, h5, h2, g2, by simp, hg2⟩
  rw [h4, (char_eq_ok.1 h4).1]

/-- Sources of a category with a first character. -/
def headed : TyCat → Prop
  | .atom _ | .par _ | .ty _ | .ann _ => True
  | _ => False

theorem dotted_head {ns : List Name} (h : ns ≠ []) (h' : ∀ n ∈ ns, UpName n) :
    ∃ c t, dotted ns = c :: t ∧ Upper c := by
  cases ns with
  | nil => exact absurd rfl h
  | cons m ms =>
    obtain ⟨d, ds, rfl, hd, -⟩ := h' m (by simp)
    rw [dotted_eq]
    exact ⟨d, _, rfl, hd⟩

theorem TySrc_head {ind : Nat} {k : TyCat} {c : Str} (h : TySrc ind k c) (hk : headed k) :
    ∃ x t, c = x :: t ∧ TyHead x := by
  induction h with
  | var h => obtain ⟨x, t, rfl, h, -⟩ := h; exact ⟨x, t, rfl, .inl h⟩
  | extRecord => exact ⟨'{', _, rfl, .inr (.inr (.inl rfl))⟩
  | record0 => exact ⟨'{', _, rfl, .inr (.inr (.inl rfl))⟩
  | record => exact ⟨'{', _, rfl, .inr (.inr (.inl rfl))⟩
  | tuple0 => exact ⟨'(', _, rfl, .inr (.inr (.inr rfl))⟩
  | tuple => exact ⟨'(', _, rfl, .inr (.inr (.inr rfl))⟩
  | parens => exact ⟨'(', _, rfl, .inr (.inr (.inr rfl))⟩
  | parAtom _ ih => exact ih trivial
  | parConst h h' =>
    obtain ⟨c, t, e, h⟩ := dotted_head h h'
    exact ⟨c, t, e, .inr (.inl h)⟩
  | tyAtom _ ih => exact ih trivial
  | con h h' =>
    obtain ⟨c, t, e, h⟩ := dotted_head h h'
    exact ⟨c, _, by rw [e]; rfl, .inr (.inl h)⟩
  | annTy _ ih => exact ih trivial
  | annArrow _ _ _ _ ih =>
    obtain ⟨x, t, rfl, h⟩ := ih trivial
    exact ⟨x, _, rfl, h⟩
  | args0 => exact hk.elim
  | args => exact hk.elim
  | items0 => exact hk.elim
  | items => exact hk.elim
  | field => exact hk.elim
  | fields0 => exact hk.elim
  | fields => exact hk.elim

theorem tySrc_ne_nil {ind : Nat} {k : TyCat} {c r : Str} (h : TySrc ind k c) (hk : headed k) :
    c ++ r ≠ [] := by
  obtain ⟨x, t, rfl, -⟩ := TySrc_head h hk
  simp

theorem loName_ne_nil {s r : Str} {n : Name} (h : loName s = .ok n r) : s ≠ [] := by
  rintro rfl
  rw [err_nil cons_loName] at h; cases h

theorem loName_sound {s r : Str} {n : Name} (h : loName s = .ok n r) : s = n ++ r ∧ LoName n := by
  obtain ⟨h1, h2⟩ := loName_iff.1 h
  exact ⟨h1, h2.imp id fun h => ⟨h.1, h.2.1⟩⟩

/-- The recursive parsers are sound; an annotation is an arrow or just a type. -/
structure TySound (rc : TyRec) : Prop where
  ty : ∀ {ind s t r}, rc.type_ ind s = .ok t r → ∃ c, s = c ++ r ∧ TySrc ind (.ty t) c
  ann : ∀ {ind s t r}, rc.typeAnnotation ind s = .ok t r → rc.type_ ind s = .ok t r ∨
    ∃ t1 t2 c w1 w2 d, t = .TypeApplication t1 t2 ∧ s = c ++ w1 ++ c!"->" ++ w2 ++ d ++ r ∧
      TySrc ind (.ty t1) c ∧ SpaceNl w1 ∧ SpaceNl w2 ∧ TySrc ind (.ann t2) d

theorem TySound.ann' {rc : TyRec} (hs : TySound rc) {ind : Nat} {s r : Str} {t : Ty}
    (h : rc.typeAnnotation ind s = .ok t r) : ∃ c, s = c ++ r ∧ TySrc ind (.ann t) c := by
  rcases hs.ann h with h | ⟨t1, t2, c, w1, w2, d, rfl, rfl, h1, h2, h3, h4⟩
  · obtain ⟨c, rfl, h'⟩ := hs.ty h
    exact ⟨c, rfl, .annTy h'⟩
  · exact ⟨c ++ w1 ++ c!"->" ++ w2 ++ d, by simp, .annArrow h1 h2 h3 h4⟩

theorem spacesAndNewlines_iff {s v r : Str} :
    spacesAndNewlines s = .ok v r ↔ s = v ++ r ∧ SpaceNl v ∧ Next (fun c => c ≠ ' ' ∧ c ≠ '\n') r := by
  unfold spacesAndNewlines SpaceNl
  rw [takeWhile1_iff]
  simp only [NotStart, Next, Bool.or_eq_true, beq_iff_eq, Bool.or_eq_false_iff,
    beq_eq_false_iff_ne, and_assoc, ne_eq]

section
variable {rc : TyRec} (hs : TySound rc) {ind : Nat} {s r : Str}
include hs

theorem typeItems_sound {ts : List Ty} (h : Steps (preceded (commaSep ind) (rc.type_ ind)) s ts r) :
    ∃ c, s = c ++ r ∧ TySrc ind (.items ts) c := by
  induction h with
  | nil s => exact ⟨[], rfl, .items0⟩
  | cons h1 _ ih =>
    obtain ⟨c, rfl, hc⟩ := ih
    obtain ⟨_, r1, h1, h2⟩ := preceded_eq_ok.1 h1
    obtain ⟨d, rfl, hd⟩ := hs.ty h2
    obtain ⟨g1, g2, rfl, hg1, hg2⟩ := commaSep_of_ok h1 (tySrc_ne_nil hd trivial)
    exact ⟨g1 ++ c!"," ++ g2 ++ d ++ c, by simp, .items hg1 hg2 hd hc⟩

theorem typeTuple_sound {t : Ty} (h : typeTuple rc ind s = .ok t r) :
    ∃ c, s = c ++ r ∧ TySrc ind (.atom t) c := by
  unfold typeTuple at h
  obtain ⟨ts, h0, rfl⟩ := pmap_eq_ok.1 h
  obtain ⟨s1, r1, h1, o2, s2, h2, h3, g2, rfl, hg2⟩ := bracket_of_ok h0
  obtain ⟨-, rfl⟩ := char_eq_ok.1 h1
  rcases sepList_steps h3 with ⟨rfl, h4, -⟩ | ⟨v, vs, r2, rfl, h4, h5⟩
  · subst h4
    obtain ⟨g1, rfl, hg1⟩ := optGap_of_ok h2 (by simp)
    rcases opt_eq_ok.1 h2 with ⟨i, h6, -⟩ | ⟨-, -, h6⟩
    · obtain ⟨hn, -⟩ := gapTxt_of_ok h6 (by simp)
      have : g2 = [] := by
        rcases hg2 with rfl | ⟨j, hg2⟩
        · rfl
        · have := hg2.gap (r := ')' :: r) ⟨next_cons.2 (by decide), by simp⟩
          rw [gap_none hn] at this
          cases this
      subst this
      exact ⟨c!"(" ++ g1 ++ c!")", by simp, .tuple0 hg1⟩
    · have : g1 = [] := by simpa using h6.symm
      subst this
      exact ⟨c!"(" ++ g2 ++ c!")", by simp, .tuple0 hg2⟩
  · obtain ⟨c, rfl, hc⟩ := hs.ty h4
    obtain ⟨d, rfl, hd⟩ := typeItems_sound hs h5
    obtain ⟨g1, rfl, hg1⟩ := optGap_of_ok h2 (tySrc_ne_nil hc trivial)
    exact ⟨c!"(" ++ g1 ++ c ++ d ++ g2 ++ c!")", by simp, .tuple hg1 hc hd hg2⟩

theorem typeRecordPair_sound {f : Name × Ty} (h : typeRecordPair rc ind s = .ok f r) :
    ∃ c, s = c ++ r ∧ TySrc ind (.field f) c := by
  unfold typeRecordPair at h
  simp only [bind_eq_ok, pure_eq_ok] at h
  obtain ⟨n, r1, h1, _, r2, h2, _, r3, h3, _, r4, h4, t, r5, h5, rfl, rfl⟩ := h
  obtain ⟨rfl, hn⟩ := loName_sound h1
  obtain ⟨c, rfl, hc⟩ := hs.ann' h5
  obtain ⟨g2, rfl, hg2⟩ := optGap_of_ok h4 (tySrc_ne_nil hc trivial)
  obtain ⟨g1, rfl, hg1⟩ := optGap_of_ok h2 (char_ne_nil h3)
  obtain ⟨-, rfl⟩ := char_eq_ok.1 h3
  exact ⟨n ++ g1 ++ c!":" ++ g2 ++ c, by simp, .field hn hg1 hg2 hc⟩

theorem typeFields_sound {fs : List (Name × Ty)}
    (h : Steps (preceded (commaSep ind) (typeRecordPair rc ind)) s fs r) :
    ∃ c, s = c ++ r ∧ TySrc ind (.fields fs) c := by
  induction h with
  | nil s => exact ⟨[], rfl, .fields0⟩
  | cons h1 _ ih =>
    obtain ⟨c, rfl, hc⟩ := ih
    obtain ⟨_, r1, h1, h2⟩ := preceded_eq_ok.1 h1
    have hne : r1 ≠ [] := by
      unfold typeRecordPair at h2
      obtain ⟨n, _, h2, -⟩ := bind_eq_ok.1 h2
      exact loName_ne_nil h2
    obtain ⟨g1, g2, rfl, hg1, hg2⟩ := commaSep_of_ok h1 hne
    obtain ⟨d, rfl, hd⟩ := typeRecordPair_sound hs h2
    exact ⟨g1 ++ c!"," ++ g2 ++ d ++ c, by simp, .fields hg1 hg2 hd hc⟩

omit hs in
theorem typeRecordPair_ne_nil {f : Name × Ty} (h : typeRecordPair rc ind s = .ok f r) : s ≠ [] := by
  unfold typeRecordPair at h
  obtain ⟨n, _, h2, -⟩ := bind_eq_ok.1 h
  exact loName_ne_nil h2

theorem typeRecord_sound {t : Ty} (h : typeRecord rc ind s = .ok t r) :
    ∃ c, s = c ++ r ∧ TySrc ind (.atom t) c := by
  unfold typeRecord typeRecordPairs at h
  obtain ⟨s1, r1, h1, o2, s2, h2, h0, g2, rfl, hg2⟩ := bracket_of_ok h
  obtain ⟨ts, h3, rfl⟩ := pmap_eq_ok.1 h0
  obtain ⟨-, rfl⟩ := char_eq_ok.1 h1
  rcases sepList_steps h3 with ⟨rfl, h4, -⟩ | ⟨v, vs, r2, rfl, h4, h5⟩
  · subst h4
    obtain ⟨g1, rfl, hg1⟩ := optGap_of_ok h2 (by simp)
    rcases opt_eq_ok.1 h2 with ⟨i, h6, -⟩ | ⟨-, -, h6⟩
    · obtain ⟨hn, -⟩ := gapTxt_of_ok h6 (by simp)
      have : g2 = [] := by
        rcases hg2 with rfl | ⟨j, hg2⟩
        · rfl
        · have := hg2.gap (r := '}' :: r) ⟨next_cons.2 (by decide), by simp⟩
          rw [gap_none hn] at this
          cases this
      subst this
      exact ⟨c!"{" ++ g1 ++ c!"}", by simp, .record0 hg1⟩
    · have : g1 = [] := by simpa using h6.symm
      subst this
      exact ⟨c!"{" ++ g2 ++ c!"}", by simp, .record0 hg2⟩
  · obtain ⟨g1, rfl, hg1⟩ := optGap_of_ok h2 (typeRecordPair_ne_nil h4)
    obtain ⟨c, rfl, hc⟩ := typeRecordPair_sound hs h4
    obtain ⟨d, rfl, hd⟩ := typeFields_sound hs h5
    exact ⟨c!"{" ++ g1 ++ c ++ d ++ g2 ++ c!"}", by simp, .record hg1 hc hd hg2⟩

theorem typeRecordConstructor_sound {t : Ty} (h : typeRecordConstructor rc ind s = .ok t r) :
    ∃ c, s = c ++ r ∧ TySrc ind (.atom t) c := by
  unfold typeRecordConstructor typeRecordPairs at h
  obtain ⟨a, r1, r2, b, h1, h2, h3⟩ := delimited_eq_ok.1 h
  simp only [bind_eq_ok, pure_eq_ok] at h2
  obtain ⟨i1, s1, k1, v, s2, k2, i2, s3, k3, _, s4, k4, i3, s5, k5, fs, s6, k6, i4, s7, k7, rfl,
    rfl⟩ := h2
  obtain ⟨-, rfl⟩ := char_eq_ok.1 h1
  obtain ⟨n, rfl, rfl, hn, -⟩ := typeVariable_iff.1 k2
  have hne : n ++ s2 ≠ [] := by obtain ⟨x, y, rfl, -⟩ := hn; simp
  obtain ⟨-, g1, rfl, hg1⟩ := gapTxt_of_ok k1 hne
  obtain ⟨-, g2, rfl, hg2⟩ := gapTxt_of_ok k3 (char_ne_nil k4)
  obtain ⟨-, rfl⟩ := char_eq_ok.1 k4
  obtain ⟨-, g4, rfl, hg4⟩ := gapTxt_of_ok k7 (char_ne_nil h3)
  obtain ⟨-, rfl⟩ := char_eq_ok.1 h3
  rcases sepList_steps k6 with ⟨rfl, h4, -⟩ | ⟨f, fs, r2, rfl, h4, h5⟩
  · exfalso
    subst h4
    obtain ⟨c, t, rfl, -⟩ := hg4.cons
    obtain ⟨hn, -⟩ := gapTxt_of_ok k5 (by simp)
    rw [gap_none hn] at k7
    cases k7
  · obtain ⟨-, g3, rfl, hg3⟩ := gapTxt_of_ok k5 (typeRecordPair_ne_nil h4)
    obtain ⟨c, rfl, hc⟩ := typeRecordPair_sound hs h4
    obtain ⟨d, rfl, hd⟩ := typeFields_sound hs h5
    exact ⟨c!"{" ++ g1 ++ n ++ g2 ++ c!"|" ++ g3 ++ c ++ d ++ g4 ++ c!"}", by simp,
      .extRecord hg1 hn hg2 hg3 hc hd hg4⟩

/-- A parenthesised type without an arrow at the top would have been read as a tuple. -/
theorem typeParens_sound {t : Ty} (h : typeParens rc ind s = .ok t r)
    (h' : typeTuple rc ind s = .err) : ∃ c, s = c ++ r ∧ TySrc ind (.atom t) c := by
  unfold typeParens at h
  obtain ⟨s1, r1, h1, o2, s2, h2, h3, g2, rfl, hg2⟩ := bracket_of_ok h
  obtain ⟨-, rfl⟩ := char_eq_ok.1 h1
  rcases hs.ann h3 with h4 | ⟨t1, t2, c, w1, w2, d, rfl, rfl, k1, k2, k3, k4⟩
  · exfalso
    have hn : NoGap (')' :: r) := ⟨next_cons.2 (by decide), by simp⟩
    obtain ⟨o, ho⟩ := hg2.opt hn
    have hc : commaSep ind (g2 ++ ')' :: r) = .err := by
      unfold commaSep
      rw [delimited_apply, ho, andThen_ok, char_cons_ne _ (by decide)]
      rfl
    have hl : (g2 ++ ')' :: r).length ≠ s2.length := by
      obtain ⟨c, rfl, hc⟩ := hs.ty h4
      obtain ⟨x, t, rfl, -⟩ := TySrc_head hc trivial
      simp only [List.length_append, List.length_cons]
      omega
    have : sepList (commaSep ind) (rc.type_ ind) s2 = .ok [t] (g2 ++ ')' :: r) := by
      unfold sepList
      rw [h4]
      simp only [if_neg hl, sepLoop, hc, andThen_ok]
    unfold typeTuple at h'
    rw [pmap_apply, delimited_apply, preceded_apply, h1, andThen_ok, h2, andThen_ok, this,
      andThen_ok, terminated_apply, ho, andThen_ok, char_cons] at h'
    cases h'
  · obtain ⟨g1, rfl, hg1⟩ := optGap_of_ok h2 (by
      simp)
    exact ⟨c!"(" ++ g1 ++ c ++ w1 ++ c!"->" ++ w2 ++ d ++ g2 ++ c!")", by simp,
      .parens hg1 k1 k2 k3 k4 hg2⟩

theorem typeAtoms_sound {t : Ty}
    (h : (typeRecordConstructor rc ind </> typeRecord rc ind </> typeTuple rc ind </>
      typeParens rc ind) s = .ok t r) : ∃ c, s = c ++ r ∧ TySrc ind (.atom t) c := by
  rcases alt_eq_ok.1 h with h | ⟨-, h⟩
  · exact typeRecordConstructor_sound hs h
  rcases alt_eq_ok.1 h with h | ⟨-, h⟩
  · exact typeRecord_sound hs h
  rcases alt_eq_ok.1 h with h | ⟨h', h⟩
  · exact typeTuple_sound hs h
  · exact typeParens_sound hs h h'

omit hs in
theorem typeVariable_sound {t : Ty} (h : typeVariable s = .ok t r) :
    ∃ c, s = c ++ r ∧ TySrc ind (.atom t) c := by
  obtain ⟨n, rfl, rfl, hn, -⟩ := typeVariable_iff.1 h
  exact ⟨n, rfl, .var hn⟩

theorem typeParameter_sound {t : Ty} (h : typeParameter rc ind s = .ok t r) :
    ∃ c, s = c ++ r ∧ TySrc ind (.par t) c := by
  unfold typeParameter at h
  rcases alt_eq_ok.1 h with h | ⟨-, h⟩
  · obtain ⟨c, h1, h2⟩ := typeVariable_sound (ind := ind) h
    exact ⟨c, h1, .parAtom h2⟩
  rcases alt_eq_ok.1 h with h | ⟨-, h⟩
  · unfold typeConstant at h
    obtain ⟨ns, h0, rfl⟩ := pmap_eq_ok.1 h
    obtain ⟨rfl, h1, h2, -⟩ := moduleName_iff.1 h0
    exact ⟨_, rfl, .parConst h1 h2⟩
  · obtain ⟨c, h1, h2⟩ := typeAtoms_sound hs h
    exact ⟨c, h1, .parAtom h2⟩

theorem typeArgs_sound {ts : List Ty} (h : Steps (typeArg rc ind) s ts r) :
    ∃ c, s = c ++ r ∧ TySrc ind (.args ts) c := by
  induction h with
  | nil s => exact ⟨[], rfl, .args0⟩
  | cons h1 _ ih =>
    obtain ⟨c, rfl, hc⟩ := ih
    unfold typeArg at h1
    simp only [bind_eq_ok] at h1
    obtain ⟨i, r1, h1, h2⟩ := h1
    obtain ⟨d, rfl, hd⟩ := typeParameter_sound hs h2
    obtain ⟨-, g, rfl, hg⟩ := gapTxt_of_ok h1 (tySrc_ne_nil hd trivial)
    exact ⟨g ++ d ++ c, by simp, .args hg hd hc⟩

theorem typeConstructorF_sound {t : Ty} (h : typeConstructorF rc ind s = .ok t r) :
    ∃ ns ts c, t = .TypeConstructor ns ts ∧ s = dotted ns ++ c ++ r ∧ ns ≠ [] ∧ (∀ n ∈ ns, UpName n) ∧
      TySrc ind (.args ts) c := by
  unfold typeConstructorF at h
  simp only [bind_eq_ok, pure_eq_ok] at h
  obtain ⟨ns, r1, h1, ts, r2, h2, rfl, rfl⟩ := h
  obtain ⟨rfl, h3, h4, -⟩ := moduleName_iff.1 h1
  obtain ⟨c, rfl, hc⟩ := typeArgs_sound hs (many0_steps h2)
  exact ⟨ns, ts, c, rfl, by simp, h3, h4, hc⟩

theorem typeF_sound {t : Ty} (h : typeF rc ind s = .ok t r) :
    ∃ c, s = c ++ r ∧ TySrc ind (.ty t) c := by
  unfold typeF at h
  rcases alt_eq_ok.1 h with h | ⟨-, h⟩
  · obtain ⟨ns, ts, c, rfl, rfl, h1, h2, h3⟩ := typeConstructorF_sound hs h
    exact ⟨_, rfl, .con h1 h2 h3⟩
  rcases alt_eq_ok.1 h with h | ⟨-, h⟩
  · obtain ⟨c, h1, h2⟩ := typeVariable_sound (ind := ind) h
    exact ⟨c, h1, .tyAtom h2⟩
  · obtain ⟨c, h1, h2⟩ := typeAtoms_sound hs h
    exact ⟨c, h1, .tyAtom h2⟩
end

/-- Right-nested function type. -/
def arrows (t : Ty) : List Ty → Ty
  | [] => t
  | u :: us => .TypeApplication t (arrows u us)

theorem arrows_append (t : Ty) (vs : List Ty) (a b : Ty) :
    arrows t (vs ++ [a, b]) = arrows t (vs ++ [.TypeApplication a b]) := by
  induction vs generalizing t with
  | nil => rfl
  | cons v vs ih => simp only [List.cons_append, arrows, ih]

theorem foldl_arrows (rev : List Ty) (acc t : Ty) (us : List Ty) (h : t :: us = (rev.reverse ++ [acc])) :
    rev.foldl (fun app entry => .TypeApplication entry app) acc = arrows t us := by
  induction rev generalizing acc t us with
  | nil =>
    simp only [List.reverse_nil, List.nil_append, List.cons.injEq] at h
    obtain ⟨rfl, rfl⟩ := h
    rfl
  | cons x rev ih =>
    simp only [List.reverse_cons, List.append_assoc, List.cons_append, List.nil_append] at h
    simp only [List.foldl_cons]
    cases hr : rev.reverse with
    | nil =>
      rw [hr] at h
      simp only [List.nil_append, List.cons.injEq] at h
      obtain ⟨rfl, rfl⟩ := h
      rw [ih (.TypeApplication t acc) (.TypeApplication t acc) [] (by rw [hr]; rfl)]
      rfl
    | cons y ys =>
      rw [hr] at h
      simp only [List.cons_append, List.cons.injEq] at h
      obtain ⟨rfl, rfl⟩ := h
      rw [ih (.TypeApplication x acc) t (ys ++ [.TypeApplication x acc]) (by rw [hr]; rfl),
        arrows_append]

/-- `buildArrows` on the reversed vector nests to the right. -/
theorem buildArrows_eq (t u : Ty) (us : List Ty) :
    buildArrows (t :: u :: us).reverse = some (arrows t (u :: us)) := by
  have h := (List.reverse_reverse (t :: u :: us))
  cases hr : (t :: u :: us).reverse with
  | nil => rw [hr] at h; simp at h
  | cons b rest =>
    cases rest with
    | nil => rw [hr] at h; simp at h
    | cons a v =>
      rw [hr] at h
      simp only [List.reverse_cons, List.append_assoc, List.cons_append, List.nil_append] at h
      simp only [buildArrows, Option.some.injEq]
      cases hv : v.reverse with
      | nil =>
        rw [hv] at h
        simp only [List.nil_append, List.cons.injEq] at h
        obtain ⟨rfl, rfl, rfl⟩ := h
        rw [foldl_arrows v _ (.TypeApplication a b) [] (by rw [hv]; rfl)]
        rfl
      | cons y ys =>
        rw [hv] at h
        simp only [List.cons_append, List.cons.injEq] at h
        obtain ⟨rfl, h⟩ := h
        rw [← h, arrows_append, foldl_arrows v _ y (ys ++ [.TypeApplication a b]) (by rw [hv]; rfl)]

theorem typeAnnotationF_eq_ok {rc : TyRec} {ind : Nat} {s r : Str} {t : Ty} :
    typeAnnotationF rc ind s = .ok t r ↔ ∃ v vs, t = arrows v vs ∧
      sepNonemptyList arrowSep (typeF rc ind) s = .ok (v :: vs) r := by
  unfold typeAnnotationF
  rw [bind_eq_ok]
  constructor
  · rintro ⟨l, r1, h1, h2⟩
    match l with
    | [] => simp [fail_apply] at h2
    | [v] =>
      simp only [List.isEmpty_cons, Bool.false_eq_true, if_false, List.length_cons, List.length_nil,
        Nat.zero_add, beq_self_eq_true, if_true, index_eq_ok, List.getElem?_cons_zero,
        Option.some.injEq] at h2
      obtain ⟨rfl, rfl⟩ := h2
      exact ⟨v, [], rfl, h1⟩
    | v :: u :: us =>
      rw [if_neg (by simp), if_neg (by simp), buildArrows_eq] at h2
      obtain ⟨rfl, rfl⟩ := pure_eq_ok.1 h2
      exact ⟨v, u :: us, rfl, h1⟩
  · rintro ⟨v, vs, rfl, h⟩
    refine ⟨_, _, h, ?_⟩
    cases vs with
    | nil => rfl
    | cons u us =>
      rw [if_neg (by simp), if_neg (by simp), buildArrows_eq]
      rfl

section
variable {rc : TyRec} (hs : TySound rc) {ind : Nat} {s r : Str}
include hs

theorem arrowSteps_sound {t : Ty} {ts : List Ty} {c : Str} (hc : TySrc ind (.ty t) c)
    (h : Steps (preceded arrowSep (typeF rc ind)) s ts r) :
    (ts = [] ∧ s = r) ∨ ∃ t2 w1 w2 d, arrows t ts = .TypeApplication t t2 ∧
      s = w1 ++ c!"->" ++ w2 ++ d ++ r ∧ SpaceNl w1 ∧ SpaceNl w2 ∧ TySrc ind (.ann t2) d := by
  induction h generalizing t c with
  | nil s => exact .inl ⟨rfl, rfl⟩
  | cons h1 _ ih =>
    right
    obtain ⟨_, r1, h1, h2⟩ := preceded_eq_ok.1 h1
    obtain ⟨d, rfl, hd⟩ := typeF_sound hs h2
    unfold arrowSep at h1
    obtain ⟨w1, s1, s2, w2, k1, k2, k3⟩ := delimited_eq_ok.1 h1
    obtain ⟨rfl, hw1, -⟩ := spacesAndNewlines_iff.1 k1
    obtain ⟨-, rfl⟩ := tag_eq_ok.1 k2
    obtain ⟨rfl, hw2, -⟩ := spacesAndNewlines_iff.1 k3
    rcases ih hd with ⟨rfl, rfl⟩ | ⟨t2, w3, w4, e, h3, rfl, hw3, hw4, he⟩
    · exact ⟨_, w1, w2, d, rfl, by simp, hw1, hw2, .annTy hd⟩
    · refine ⟨_, w1, w2, d ++ w3 ++ c!"->" ++ w4 ++ e, rfl, by simp, hw1, hw2, ?_⟩
      rw [h3]
      exact .annArrow hd hw3 hw4 he

theorem typeAnnotationF_sound {t : Ty} (h : typeAnnotationF rc ind s = .ok t r) :
    typeF rc ind s = .ok t r ∨
    ∃ t1 t2 c w1 w2 d, t = .TypeApplication t1 t2 ∧ s = c ++ w1 ++ c!"->" ++ w2 ++ d ++ r ∧
      TySrc ind (.ty t1) c ∧ SpaceNl w1 ∧ SpaceNl w2 ∧ TySrc ind (.ann t2) d := by
  obtain ⟨v, vs, rfl, h0⟩ := typeAnnotationF_eq_ok.1 h
  obtain ⟨_, _, r1, h1, h2, h3⟩ := sepNonemptyList_steps h0
  simp only [List.cons.injEq] at h1
  obtain ⟨rfl, rfl⟩ := h1
  obtain ⟨c, rfl, hc⟩ := typeF_sound hs h2
  rcases arrowSteps_sound hs hc h3 with ⟨rfl, rfl⟩ | ⟨t2, w1, w2, d, e, rfl, k1, k2, k3⟩
  · exact .inl h2
  · exact .inr ⟨_, t2, c, w1, w2, d, e, by simp, hc, k1, k2, k3⟩
end

theorem tySound_tyN (n : Nat) : TySound (tyN n) := by
  induction n with
  | zero => exact ⟨fun h => (by cases h), fun h => (by cases h)⟩
  | succ n ih => exact ⟨fun h => typeF_sound ih h, fun h => typeAnnotationF_sound ih h⟩

theorem type_sound {ind : Nat} {s r : Str} {t : Ty} (h : type_ ind s = .ok t r) :
    ∃ c, s = c ++ r ∧ TySrc ind (.ty t) c := by
  rw [type_apply] at h
  exact (tySound_tyN _).ty h
theorem typeAnnotation_sound {ind : Nat} {s r : Str} {t : Ty} (h : typeAnnotation ind s = .ok t r) :
    ∃ c, s = c ++ r ∧ TySrc ind (.ann t) c := by
  rw [typeAnnotation_apply] at h
  exact (tySound_tyN _).ann' h

theorem tySound_tyRec : TySound tyRec where
  ty h := type_sound h
  ann {ind s t r} h := by
    have e : typeAnnotation ind s = .ok t r := h
    rw [typeAnnotation_apply] at e
    have h' := (tySound_tyN _).ann e
    rw [← type_apply] at h'
    exact h'

theorem typeConstructor_sound {ind : Nat} {s r : Str} {t : Ty} (h : typeConstructor ind s = .ok t r) :
    ∃ ns ts c, t = .TypeConstructor ns ts ∧ s = dotted ns ++ c ++ r ∧ ns ≠ [] ∧ (∀ n ∈ ns, UpName n) ∧
      TySrc ind (.args ts) c := typeConstructorF_sound tySound_tyRec h

end ElmParser
