import Verif.Proofs.TypeSound

/-! Every text of the grammar `TySrc` is read back as the tree it is a layout of. -/
namespace ElmParser
open Spec

/-! ### Follow conditions -/

theorem tyHead_noGap {c : Char} {t : Str} (h : TyHead c) : NoGap (c :: t) := by
  refine ⟨next_cons.2 ⟨?_, ?_⟩, ?_⟩
  · rintro rfl; revert h; unfold TyHead; decide
  · rintro rfl; revert h; unfold TyHead; decide
  · rintro t e
    simp only [List.cons.injEq] at e
    obtain ⟨rfl, -⟩ := e
    revert h; unfold TyHead; decide

theorem noGap_of_ne {c : Char} {t : Str} (h : c ≠ ' ' ∧ c ≠ '\n' ∧ c ≠ '-') : NoGap (c :: t) :=
  ⟨next_cons.2 ⟨h.1, h.2.1⟩, by rintro t e; simp only [List.cons.injEq] at e; exact h.2.2 e.1⟩

theorem tokenEnd_gap {ind i : Nat} {ir : IR} {g r : Str} (h : GapTxt ind ir i g) : TokenEnd (g ++ r) := by
  obtain ⟨c, t, rfl, hc⟩ := h.cons
  refine next_cons.2 ?_
  rcases hc with rfl | rfl | ⟨rfl, -⟩ <;> decide

theorem tokenEnd_optGap {ind : Nat} {ir : IR} {g r : Str} (h : OptGapTxt ind ir g) (hr : TokenEnd r) :
    TokenEnd (g ++ r) := by
  rcases h with rfl | ⟨i, h⟩
  · exact hr
  · exact tokenEnd_gap h

/-- A closing character after an optional gap ends a type. -/
theorem tyStop_closer {ind ind' : Nat} {ir : IR} {g r : Str} {c : Char} (h : OptGapTxt ind' ir g)
    (hc : c = ')' ∨ c = '}' ∨ c = ',' ∨ c = '=' ∨ c = '|') : TyStop ind (g ++ c :: r) := by
  have hte : TokenEnd (c :: r) := next_cons.2 (by rcases hc with rfl | rfl | rfl | rfl | rfl <;> decide)
  have hng : NoGap (c :: r) := noGap_of_ne (by rcases hc with rfl | rfl | rfl | rfl | rfl <;> decide)
  refine ⟨tokenEnd_optGap h hte, ?_⟩
  rcases h with rfl | ⟨i, h⟩
  · exact .inl hng
  · right
    obtain ⟨ls, n, hg, -⟩ := h.isGap hng
    refine ⟨ls, _, _, hg, ?_, .inl (next_cons.2 ?_)⟩
    · rintro t e
      simp only [List.cons.injEq] at e
      obtain ⟨rfl, -⟩ := e
      revert hc; decide
    · rcases hc with rfl | rfl | rfl | rfl | rfl <;> unfold TyHead <;> decide

/-- An arrow after spaces ends the type before it. -/
theorem spaceNl_gap {w r : Str} (h : SpaceNl w) (hr : NoGap r) : ∃ ls n, Gap (w ++ r) ls ⟨n, none⟩ r := by
  obtain ⟨hne, h⟩ := h
  suffices H : ∃ ls n, w = gapText ls ⟨n, none⟩ ∧ ∀ l ∈ ls, Line.ok l by
    obtain ⟨ls, n, h1, h2⟩ := H
    exact ⟨ls, n, ⟨by rw [h1], h1 ▸ hne, h2, by simp [Line.ok], .inl ⟨rfl, hr⟩⟩⟩
  clear hne
  induction w with
  | nil => exact ⟨[], 0, rfl, by simp⟩
  | cons c w ih =>
    obtain ⟨ls, n, rfl, h2⟩ := ih fun x hx => h x (by simp [hx])
    rcases h c (by simp) with rfl | rfl
    · cases ls with
      | nil => exact ⟨[], n + 1, by simp [gapText, Line.text, sp, List.replicate_succ], by simp⟩
      | cons l ls =>
        refine ⟨⟨l.spaces + 1, l.comment⟩ :: ls, n, by
          simp [gapText, Line.text, sp, List.replicate_succ], ?_⟩
        simp only [List.mem_cons, forall_eq_or_imp] at h2 ⊢
        exact h2
    · exact ⟨⟨0, none⟩ :: ls, n, by simp [gapText, Line.text, sp, commentText], by
        simp only [List.mem_cons, forall_eq_or_imp]
        exact ⟨by simp [Line.ok], h2⟩⟩

/-! ### Failures -/

theorem typeVariable_err {c : Char} {t : Str} (h : ¬ Lower c) : typeVariable (c :: t) = .err := by
  rcases err_or_ok cons_typeVariable (c :: t) with e | ⟨v, r, e, -⟩
  · exact e
  · obtain ⟨n, -, e, ⟨x, y, rfl, hx, -⟩, -⟩ := typeVariable_iff.1 e
    simp only [List.cons_append, List.cons.injEq] at e
    rw [e.1] at h
    exact absurd hx h

theorem upDots_err {c : Char} {t : Str} (h : ¬ Upper c) :
    sepNonemptyList (char '.') upName (c :: t) = .err := by
  unfold sepNonemptyList
  rw [upName_err.2 (next_cons.2 h)]
  rfl

theorem typeConstructorF_err {rc : TyRec} {ind : Nat} {c : Char} {t : Str} (h : ¬ Upper c) :
    typeConstructorF rc ind (c :: t) = .err := by
  unfold typeConstructorF
  rw [bind_apply, upDots_err h]
  rfl

theorem typeConstant_err {c : Char} {t : Str} (h : ¬ Upper c) : typeConstant (c :: t) = .err := by
  unfold typeConstant
  rw [pmap_apply, upDots_err h]
  rfl

theorem bracket_err {α : Type} {o c d : Char} {ind : Nat} {p : Parser α} {t : Str} (h : d ≠ o) :
    delimited (preceded (char o) (opt (gap ind .GTE))) p
      (terminated (opt (gap ind .GTE)) (char c)) (d :: t) = .err := by
  rw [delimited_apply, preceded_apply, char_cons_ne _ h]
  rfl

section
variable {rc : TyRec} {ind : Nat}

theorem typeTuple_err {d : Char} {t : Str} (h : d ≠ '(') : typeTuple rc ind (d :: t) = .err := by
  unfold typeTuple
  rw [pmap_apply, bracket_err h]
  rfl
theorem typeParens_err {d : Char} {t : Str} (h : d ≠ '(') : typeParens rc ind (d :: t) = .err := by
  unfold typeParens
  rw [bracket_err h]
theorem typeRecord_err {d : Char} {t : Str} (h : d ≠ '{') : typeRecord rc ind (d :: t) = .err := by
  unfold typeRecord
  rw [bracket_err h]
theorem typeRecordConstructor_err {d : Char} {t : Str} (h : d ≠ '{') :
    typeRecordConstructor rc ind (d :: t) = .err := by
  unfold typeRecordConstructor
  rw [delimited_apply, char_cons_ne _ h]
  rfl

theorem typeParameter_err {s : Str} (h : Next (fun c => ¬ TyHead c) s) : typeParameter rc ind s = .err := by
  unfold typeParameter
  cases s with
  | nil => rfl
  | cons c s =>
    have hc := next_cons.1 h
    unfold TyHead at hc
    simp only [not_or] at hc
    simp only [alt_apply, typeVariable_err hc.1, typeConstant_err hc.2.1,
      typeRecordConstructor_err hc.2.2.1, typeRecord_err hc.2.2.1, typeTuple_err hc.2.2.2,
      typeParens_err hc.2.2.2, orElse_err]

theorem typeArg_err {r : Str} (h : TyStop ind r) : typeArg rc ind r = .err := by
  unfold typeArg
  rw [bind_apply]
  rcases h.2 with h | ⟨ls, last, r', hg, -, h⟩
  · rw [gap_none h]; rfl
  · rcases err_or_ok (fun k => cons_gap k ind .GT) r with e | ⟨i, t, e, -⟩
    · rw [e]; rfl
    · rw [e, andThen_ok]
      obtain ⟨rfl, h'⟩ := (gap_of_gap hg ind .GT).1 e
      rcases h with h | ⟨h1, h2⟩
      · exact typeParameter_err h
      · rcases h' with ⟨h3, -⟩ | ⟨-, -, h3⟩
        · exact absurd h3 h1
        · exact absurd h3 (Nat.not_lt.2 h2)

theorem arrow_err {p : Parser Ty} {r : Str} (h : TyStop ind r) : preceded arrowSep p r = .err := by
  have : arrowSep r = .err := by
    unfold arrowSep
    rw [delimited_apply]
    rcases err_or_ok cons_spacesAndNewlines r with e | ⟨w, t, e, -⟩
    · rw [e]; rfl
    · rw [e, andThen_ok]
      obtain ⟨rfl, hw, ht⟩ := spacesAndNewlines_iff.1 e
      rcases err_or_ok (fun k => cons_tag k '-' c!">") t with e' | ⟨v, t', e', -⟩
      · rw [e']; rfl
      · exfalso
        obtain ⟨-, rfl⟩ := tag_eq_ok.1 e'
        have hng : NoGap (c!"->" ++ t') := ⟨next_cons.2 (by decide), by simp⟩
        obtain ⟨ls, n, hg⟩ := spaceNl_gap hw hng
        rcases h.2 with h | ⟨ls', last', r', hg', h, -⟩
        · obtain ⟨hne, hw⟩ := hw
          cases w with
          | nil => exact hne rfl
          | cons c w =>
            have h1 := h.1 c _ rfl
            rcases hw c (by simp) with rfl | rfl
            · exact h1.1 rfl
            · exact h1.2 rfl
        · obtain ⟨rfl, -⟩ := gap_unique hg hg'
          exact h t' rfl
  rw [preceded_apply, this]
  rfl
end

/-- What a separator looks like from before: it ends a type. -/
theorem tyStop_comma {ind : Nat} {g r : Str} (h : OptGapTxt ind .GTE g) :
    TyStop ind (g ++ c!"," ++ r) := by
  rw [List.append_assoc]
  exact tyStop_closer h (by decide)

theorem tyStop_arrow {w r : Str} (h : SpaceNl w) : TokenEnd (w ++ c!"->" ++ r) := by
  obtain ⟨hne, hw⟩ := h
  cases w with
  | nil => exact absurd rfl hne
  | cons c w =>
    refine next_cons.2 ?_
    rcases hw c (by simp) with rfl | rfl <;> decide

/-- Before an arrow a constructor takes no more arguments. -/
theorem typeArg_err_arrow {rc : TyRec} {ind : Nat} {w r : Str} (h : SpaceNl w) :
    typeArg rc ind (w ++ c!"->" ++ r) = .err := by
  have hng : NoGap (c!"->" ++ r) := ⟨next_cons.2 (by decide), by simp⟩
  obtain ⟨ls, n, hg⟩ := spaceNl_gap h hng
  rw [List.append_assoc]
  unfold typeArg
  rw [bind_apply]
  rcases err_or_ok (fun k => cons_gap k ind .GT) (w ++ (c!"->" ++ r)) with e | ⟨i, t, e, -⟩
  · rw [e]; rfl
  · rw [e, andThen_ok]
    obtain ⟨rfl, -⟩ := (gap_of_gap hg ind .GT).1 e
    exact typeParameter_err (next_cons.2 (by unfold TyHead; decide))

/-- A type constructor's arguments end before `r`. -/
structure ArgEnd (ind : Nat) (r : Str) : Prop where
  tok : TokenEnd r
  arg : typeArg tyRec ind r = .err

theorem Spec.TyStop.argEnd {ind : Nat} {r : Str} (h : TyStop ind r) : ArgEnd ind r := ⟨h.1, typeArg_err h⟩

theorem moduleName_complete {ns : List Name} {r : Str} (h : ns ≠ []) (h' : ∀ n ∈ ns, UpName n)
    (hr : TokenEnd r) : sepNonemptyList (char '.') upName (dotted ns ++ r) = .ok ns r :=
  moduleName_iff.2 ⟨rfl, h, h', Next.imp hr fun _ h => h.1, by
    rintro c t rfl
    exact absurd rfl (next_cons.1 hr).2⟩

theorem commaSep_ok {ind : Nat} {g1 g2 r : Str} (h1 : OptGapTxt ind .GTE g1) (h2 : OptGapTxt ind .GTE g2)
    (hr : NoGap r) : commaSep ind (g1 ++ c!"," ++ g2 ++ r) = .ok ',' r := by
  unfold commaSep
  obtain ⟨o1, e1⟩ := h1.opt (r := c!"," ++ g2 ++ r) (noGap_of_ne (by decide))
  obtain ⟨o2, e2⟩ := h2.opt hr
  simp only [List.append_assoc] at e1 ⊢
  rw [delimited_apply, e1, andThen_ok, List.cons_append, List.nil_append, char_cons, andThen_ok, e2]
  rfl

theorem commaSep_err {ind : Nat} {g r : Str} {c : Char} (h : OptGapTxt ind .GTE g) (hr : NoGap (c :: r))
    (hc : c ≠ ',') : commaSep ind (g ++ c :: r) = .err := by
  unfold commaSep
  obtain ⟨o1, e1⟩ := h.opt hr
  rw [delimited_apply, e1, andThen_ok, char_cons_ne _ hc]
  rfl

theorem cons_sep_comma {α : Type} {ind : Nat} {p : Parser α} (hp : ∀ k, Cons k p) (k : Nat) :
    Cons k (preceded (commaSep ind) p) := by
  cases k with
  | zero => intro s hs; omega
  | succ k => exact cons_preceded (cons_commaSep _ _) (hp k).good

theorem run_cons {α : Type} {p : Parser α} (hp : ∀ k, Cons k p) {s r t : Str} {v : α} {vs : List α}
    (h : p s = .ok v r) (h' : Run p r vs t) : Run p s (v :: vs) t :=
  .cons h (lt_of_ok hp h) h'

/-! ### The theorem -/

theorem cons_typeRecordPair' (k ind : Nat) : Cons k (typeRecordPair tyRec ind) :=
  (cons_typeRecordPair (goodRec_tyRec k) ind).mono (by omega)
theorem cons_typeArg' (k ind : Nat) : Cons k (typeArg tyRec ind) :=
  (cons_typeArg (goodRec_tyRec k) ind).mono (by omega)
theorem cons_typeF' (k ind : Nat) : Cons k (typeF tyRec ind) :=
  (cons_typeF (goodRec_tyRec k) ind).mono (by omega)
theorem cons_arrowType (k ind : Nat) : Cons k (preceded arrowSep (typeF tyRec ind)) := by
  cases k with
  | zero => intro s hs; omega
  | succ k => exact cons_preceded (cons_arrowSep _) (cons_typeF' k ind).good

/-- What completeness means for each category. -/
def TyOk (ind : Nat) (c : Str) : TyCat → Prop
  | .atom t => ∀ r, ((∀ n, t ≠ .TypeVariable n) ∨ TokenEnd r) → typeF tyRec ind (c ++ r) = .ok t r ∧ typeParameter tyRec ind (c ++ r) = .ok t r
  | .par t => ∀ r, TokenEnd r → typeParameter tyRec ind (c ++ r) = .ok t r
  | .ty t => ∀ r, ArgEnd ind r → typeF tyRec ind (c ++ r) = .ok t r
  | .ann t => ∀ r, TyStop ind r → ∃ v vs r1, t = arrows v vs ∧ typeF tyRec ind (c ++ r) = .ok v r1 ∧
      Run (preceded arrowSep (typeF tyRec ind)) r1 vs r
  | .args ts => ∀ r, ArgEnd ind r → TokenEnd (c ++ r) ∧ Run (typeArg tyRec ind) (c ++ r) ts r
  | .items ts => ∀ r, TyStop ind r → TyStop ind (c ++ r) ∧
      Run (preceded (commaSep ind) (tyRec.type_ ind)) (c ++ r) ts r
  | .field f => ∀ r, TyStop ind r → typeRecordPair tyRec ind (c ++ r) = .ok f r ∧ NoGap (c ++ r)
  | .fields fs => ∀ r, TyStop ind r → TyStop ind (c ++ r) ∧
      Run (preceded (commaSep ind) (typeRecordPair tyRec ind)) (c ++ r) fs r

theorem ann_of_run {ind : Nat} {s r r1 : Str} {v : Ty} {vs : List Ty} (hr : TyStop ind r)
    (h1 : typeF tyRec ind s = .ok v r1) (h2 : Run (preceded arrowSep (typeF tyRec ind)) r1 vs r) :
    typeAnnotation ind s = .ok (arrows v vs) r := by
  rw [typeAnnotation_unfold]
  exact typeAnnotationF_eq_ok.2 ⟨v, vs, rfl,
    (sepNonemptyList_iff cons_arrowSep (fun k => cons_typeF' k ind)).2
      ⟨v, vs, r1, rfl, h1, h2, arrow_err hr⟩⟩

theorem TyOk.ann {ind : Nat} {c r : Str} {t : Ty} (h : TyOk ind c (.ann t)) (hr : TyStop ind r) :
    typeAnnotation ind (c ++ r) = .ok t r := by
  obtain ⟨v, vs, r1, rfl, h1, h2⟩ := h r hr
  exact ann_of_run hr h1 h2

/-- A bracketed list between optional gaps. -/
theorem bracket_ok {α : Type} {o cl : Char} {ind : Nat} {p : Parser α} {g1 c g2 r : Str} {v : α}
    (h1 : OptGapTxt ind .GTE g1) (h2 : OptGapTxt ind .GTE g2) (hn : NoGap (c ++ g2 ++ cl :: r))
    (hcl : NoGap (cl :: r)) (hp : p (c ++ g2 ++ cl :: r) = .ok v (g2 ++ cl :: r)) :
    delimited (preceded (char o) (opt (gap ind .GTE))) p
      (terminated (opt (gap ind .GTE)) (char cl)) ([o] ++ g1 ++ c ++ g2 ++ [cl] ++ r) = .ok v r := by
  obtain ⟨o1, e1⟩ := h1.opt hn
  obtain ⟨o2, e2⟩ := h2.opt hcl
  simp only [List.append_assoc, List.cons_append, List.nil_append] at e1 hp ⊢
  rw [delimited_apply, preceded_apply, char_cons, andThen_ok, e1, andThen_ok, hp, andThen_ok,
    terminated_apply, e2, andThen_ok, char_cons]
  rfl

theorem bracket0_ok {α : Type} {o cl : Char} {ind : Nat} {p : Parser α} {g r : Str} {v : α}
    (h1 : OptGapTxt ind .GTE g) (hcl : NoGap (cl :: r)) (hp : p (cl :: r) = .ok v (cl :: r)) :
    delimited (preceded (char o) (opt (gap ind .GTE))) p
      (terminated (opt (gap ind .GTE)) (char cl)) ([o] ++ g ++ [cl] ++ r) = .ok v r := by
  have := bracket_ok (o := o) (cl := cl) (ind := ind) (p := p) (g1 := g) (c := []) (g2 := []) (r := r)
    (v := v) h1 (.inl rfl) hcl hcl hp
  simpa using this

/-- Choose the alternative of `type_` and `type_parameter` at an opening bracket. -/
theorem typeF_brace {rc : TyRec} {ind : Nat} {t : Str} :
    typeF rc ind ('{' :: t) = (typeRecordConstructor rc ind </> typeRecord rc ind) ('{' :: t) ∧
    typeParameter rc ind ('{' :: t) = (typeRecordConstructor rc ind </> typeRecord rc ind) ('{' :: t) := by
  unfold typeF typeParameter
  simp only [alt_apply, typeConstructorF_err (c := '{') (by decide), typeVariable_err (c := '{') (by decide),
    typeConstant_err (c := '{') (by decide), typeTuple_err (d := '{') (by decide),
    typeParens_err (d := '{') (by decide), orElse_err]
  rcases typeRecordConstructor rc ind ('{' :: t) with _ | _ | _ | _ <;> simp <;>
    rcases typeRecord rc ind ('{' :: t) with _ | _ | _ | _ <;> simp

theorem typeF_paren {rc : TyRec} {ind : Nat} {t : Str} :
    typeF rc ind ('(' :: t) = (typeTuple rc ind </> typeParens rc ind) ('(' :: t) ∧
    typeParameter rc ind ('(' :: t) = (typeTuple rc ind </> typeParens rc ind) ('(' :: t) := by
  unfold typeF typeParameter
  simp only [alt_apply, typeConstructorF_err (c := '(') (by decide), typeVariable_err (c := '(') (by decide),
    typeConstant_err (c := '(') (by decide), typeRecord_err (d := '(') (by decide),
    typeRecordConstructor_err (d := '(') (by decide), orElse_err]
  rcases typeTuple rc ind ('(' :: t) with _ | _ | _ | _ <;> simp <;>
    rcases typeParens rc ind ('(' :: t) with _ | _ | _ | _ <;> simp

/-- A record does not look like an extensible record. -/
theorem typeRecordConstructor_err_record {rc : TyRec} {ind : Nat} {g r : Str} (h : OptGapTxt ind .GTE g)
    (hr : NoGap r) (hv : ∀ n s, r = n ++ s → TyVar n → Next (fun c => ¬ TyVarChar c) s →
      ∀ i s', gap ind .GTE s = .ok i s' → char '|' s' = .err) :
    typeRecordConstructor rc ind ('{' :: (g ++ r)) = .err := by
  unfold typeRecordConstructor
  rw [delimited_apply, char_cons, andThen_ok, bind_apply]
  rcases h with rfl | ⟨i, h⟩
  · rw [List.nil_append, gap_none hr]; rfl
  · rw [h.gap hr, andThen_ok, bind_apply]
    rcases err_or_ok cons_typeVariable r with e | ⟨v, s, e, -⟩
    · rw [e]; rfl
    · rw [e, andThen_ok, bind_apply]
      obtain ⟨n, -, h1, h2, h3⟩ := typeVariable_iff.1 e
      rcases err_or_ok (fun k => cons_gap k ind .GTE) s with e | ⟨i', s', e, -⟩
      · rw [e]; rfl
      · rw [e, andThen_ok, bind_apply, hv n s h1 h2 h3 i' s' e]
        rfl

theorem loName_head {n : Name} (h : LoName n) : ∃ c t, n = c :: t ∧ (c = '_' ∨ Lower c) := by
  rcases h with rfl | ⟨⟨c, t, rfl, h, -⟩, -⟩
  · exact ⟨'_', [], rfl, .inl rfl⟩
  · exact ⟨c, t, rfl, .inr h⟩

theorem loName_noGap {n : Name} {r : Str} (h : LoName n) : NoGap (n ++ r) := by
  obtain ⟨c, t, rfl, hc⟩ := loName_head h
  refine noGap_of_ne ?_
  refine ⟨?_, ?_, ?_⟩ <;> rintro rfl <;> revert hc <;> decide

theorem loName_complete {n : Name} {r : Str} (h : LoName n) (hr : Next (fun c => ¬ IdentChar c) r) :
    loName (n ++ r) = .ok n r :=
  loName_iff.2 ⟨rfl, h.imp id fun h => ⟨h.1, h.2, hr⟩⟩

theorem tokenEnd_ident {r : Str} (h : TokenEnd r) : Next (fun c => ¬ IdentChar c) r :=
  Next.imp h fun _ h => h.1

theorem tyVarChar_ident {c : Char} (h : TyVarChar c) : IdentChar c := by
  unfold TyVarChar at h
  unfold IdentChar Digit
  rcases h with h | h | h
  · exact .inl h
  · exact .inr (.inr (.inl (by omega)))
  · exact .inr (.inr (.inr h))

theorem tokenEnd_tyVar {r : Str} (h : TokenEnd r) : Next (fun c => ¬ TyVarChar c) r :=
  Next.imp h fun _ h h' => h.1 (tyVarChar_ident h')

/-- After the head of a word, the rest of a gap-and-colon is not a bar. -/
theorem field_no_bar {ind : Nat} {n g t : Str} (hn : LoName n) (hg : OptGapTxt ind .GTE g) (m s : Str)
    (h : n ++ (g ++ ':' :: t) = m ++ s) (hm : TyVar m) (hs : Next (fun c => ¬ TyVarChar c) s) (i : Nat)
    (s' : Str) (he : gap ind .GTE s = .ok i s') : char '|' s' = .err := by
  -- either `m = n`, or `m` is a proper prefix of `n`
  have hlen : m.length ≤ n.length := by
    apply Classical.byContradiction
    intro hlt
    have hc : ∃ c u, g ++ ':' :: t = c :: u ∧ ¬ TyVarChar c := by
      rcases hg with rfl | ⟨j, hg⟩
      · exact ⟨':', t, rfl, by decide⟩
      · obtain ⟨c, u, rfl, hc⟩ := hg.cons
        exact ⟨c, _, rfl, by rcases hc with rfl | rfl | ⟨rfl, -⟩ <;> decide⟩
    obtain ⟨c, u, e, hc⟩ := hc
    rw [e] at h
    have hp : n ++ [c] <+: m := by
      have h1 : n ++ [c] <+: m ++ s := ⟨u, by rw [← h]; simp⟩
      exact List.prefix_of_prefix_length_le h1 (List.prefix_append m s) (by simp; omega)
    obtain ⟨v, hv⟩ := hp
    obtain ⟨x, xs, rfl, -, hxs⟩ := hm
    obtain ⟨y, ys, rfl, -⟩ := loName_head hn
    simp only [List.cons_append, List.cons.injEq] at hv
    exact hc (hxs c (by rw [← hv.2]; simp))
  obtain ⟨u, hu⟩ : m <+: n := List.prefix_of_prefix_length_le (l₃ := m ++ s) (List.prefix_append m s)
    ⟨_, h⟩ hlen
  subst hu
  simp only [List.append_assoc, List.append_cancel_left_eq] at h
  subst h
  cases u with
  | nil =>
    simp only [List.nil_append] at he
    rcases hg with rfl | ⟨j, hg⟩
    · rw [List.nil_append, gap_none (noGap_of_ne (by decide))] at he; cases he
    · rw [hg.gap (noGap_of_ne (by decide))] at he
      simp only [Res.ok.injEq] at he
      rw [← he.2]
      exact char_cons_ne _ (by decide)
  | cons c u =>
    exfalso
    have hc : IdentChar c := by
      rcases hn with h | ⟨⟨x, xs, h, -, hxs⟩, -⟩
      · obtain ⟨x, xs, rfl, -⟩ := hm
        simp at h
      · obtain ⟨y, ys, rfl, -⟩ := hm
        simp only [List.cons_append, List.cons.injEq] at h
        exact hxs c (by rw [← h.2]; simp)
    have : NoGap (c :: u ++ (g ++ ':' :: t)) := noGap_of_ne (by
      refine ⟨?_, ?_, ?_⟩ <;> rintro rfl <;> revert hc <;> decide)
    rw [gap_none this] at he
    cases he

theorem ty_head_noGap {ind : Nat} {k : TyCat} {c r : Str} (h : TySrc ind k c) (hk : headed k) :
    NoGap (c ++ r) := by
  obtain ⟨x, t, rfl, hx⟩ := TySrc_head h hk
  exact tyHead_noGap hx

theorem sepList_comma_ok {α : Type} {ind : Nat} {p : Parser α} (hp : ∀ k, Cons k p) {s r1 r : Str} {v : α}
    {vs : List α} (h1 : p s = .ok v r1) (h2 : Run (preceded (commaSep ind) p) r1 vs r)
    (h3 : commaSep ind r = .err) : sepList (commaSep ind) p s = .ok (v :: vs) r :=
  (sepList_iff (fun k => cons_commaSep k ind) hp).2 (.inr ⟨v, vs, r1, rfl, h1, h2, by
    rw [preceded_apply, h3]; rfl⟩)

theorem sepList_comma_nil {α : Type} {ind : Nat} {p : Parser α} (hp : ∀ k, Cons k p) {s : Str}
    (h1 : p s = .err) : sepList (commaSep ind) p s = .ok [] s :=
  (sepList_iff (fun k => cons_commaSep k ind) hp).2 (.inl ⟨rfl, rfl, h1⟩)

theorem loName_err_head {c : Char} {t : Str} (h : ¬ Lower c) (h' : c ≠ '_') : loName (c :: t) = .err := by
  rcases err_or_ok cons_loName (c :: t) with e | ⟨v, r, e, -⟩
  · exact e
  · obtain ⟨e, hn⟩ := loName_sound e
    obtain ⟨x, y, rfl, hx⟩ := loName_head hn
    simp only [List.cons_append, List.cons.injEq] at e
    rw [e.1] at h h'
    exact absurd hx (not_or.2 ⟨h', h⟩)

theorem typeRecordPair_err {rc : TyRec} {ind : Nat} {c : Char} {t : Str} (h : ¬ Lower c) (h' : c ≠ '_') :
    typeRecordPair rc ind (c :: t) = .err := by
  unfold typeRecordPair
  rw [bind_apply, loName_err_head h h']
  rfl

theorem type_err {ind : Nat} {c : Char} {t : Str} (h : ¬ TyHead c) : tyRec.type_ ind (c :: t) = .err := by
  have : tyRec.type_ ind (c :: t) = typeF tyRec ind (c :: t) := congrFun (type_unfold ind) _
  rw [this]
  unfold TyHead at h
  simp only [not_or] at h
  unfold typeF
  simp only [alt_apply, typeConstructorF_err h.2.1, typeVariable_err h.1,
    typeRecordConstructor_err h.2.2.1, typeRecord_err h.2.2.1, typeTuple_err h.2.2.2,
    typeParens_err h.2.2.2, orElse_err]

theorem tyRec_type (ind : Nat) : tyRec.type_ ind = typeF tyRec ind := type_unfold ind
theorem tyRec_ann (ind : Nat) : tyRec.typeAnnotation ind = typeAnnotation ind := rfl

theorem tySrc_complete {ind : Nat} {k : TyCat} {c : Str} (h : TySrc ind k c) : TyOk ind c k := by
  induction h with
  | @var ind n h =>
    intro r hr
    have e : typeVariable (n ++ r) = .ok (.TypeVariable n) r :=
      typeVariable_iff.2 ⟨n, rfl, rfl, h, tokenEnd_tyVar (hr.resolve_left fun h => h n rfl)⟩
    obtain ⟨x, t, rfl, hx, -⟩ := h
    have hu : ¬ Upper x := by revert hx; unfold Lower Upper; omega
    unfold typeF typeParameter
    simp only [List.cons_append] at e ⊢
    simp only [alt_apply, typeConstructorF_err hu, e, orElse_err, orElse_ok, and_self]
  | @extRecord ind v f fs g1 g2 g3 g4 i1 i2 i3 i4 c cs hg1 hv hg2 hg3 _ _ hg4 ihf ihs =>
    intro r hr
    have hcl : TyStop ind (g4 ++ '}' :: r) := tyStop_closer (.inr ⟨_, hg4⟩) (by decide)
    obtain ⟨k1, k2⟩ := ihs _ hcl
    obtain ⟨k3, k4⟩ := ihf _ k1
    have hvn : NoGap (v ++ (g2 ++ ('|' :: (g3 ++ (c ++ (cs ++ (g4 ++ '}' :: r))))))) := by
      obtain ⟨x, t, rfl, hx, -⟩ := hv
      exact tyHead_noGap (.inl hx)
    have e1 := hg1.gap hvn
    have e2 : typeVariable _ = _ := typeVariable_iff.2 ⟨v, rfl, rfl, hv,
      tokenEnd_tyVar (tokenEnd_gap (r := '|' :: (g3 ++ (c ++ (cs ++ (g4 ++ '}' :: r))))) hg2)⟩
    have e3 := hg2.gap (r := '|' :: (g3 ++ (c ++ (cs ++ (g4 ++ '}' :: r))))) (noGap_of_ne (by decide))
    have e4 := hg3.gap k4
    have e5 : typeRecordPairs tyRec ind (c ++ (cs ++ (g4 ++ '}' :: r))) = .ok (f :: fs) (g4 ++ '}' :: r) :=
      sepList_comma_ok (fun k => cons_typeRecordPair' k ind) k3 k2
        (commaSep_err (.inr ⟨_, hg4⟩) (noGap_of_ne (by decide)) (by decide))
    have e6 := hg4.gap (r := '}' :: r) (noGap_of_ne (by decide))
    have e : typeRecordConstructor tyRec ind ('{' :: (g1 ++ (v ++ (g2 ++ ('|' :: (g3 ++ (c ++ (cs ++
        (g4 ++ '}' :: r))))))))) = .ok (.TypeRecordConstructor (.TypeVariable v) (f :: fs)) r := by
      unfold typeRecordConstructor
      simp only [delimited_apply, bind_apply, char_cons, andThen_ok, e1, e2, e3, e4, e5, e6, pure_apply]
    have := typeF_brace (rc := tyRec) (ind := ind)
      (t := g1 ++ (v ++ (g2 ++ ('|' :: (g3 ++ (c ++ (cs ++ (g4 ++ '}' :: r))))))))
    simp only [List.append_assoc, List.cons_append, List.nil_append]
    rw [this.1, this.2, alt_apply, e]
    exact ⟨rfl, rfl⟩
  | @record0 ind g hg =>
    intro r hr
    have hcl : NoGap ('}' :: r) := noGap_of_ne (by decide)
    have e : typeRecord tyRec ind (c!"{" ++ g ++ c!"}" ++ r) = .ok (.TypeRecord []) r :=
      bracket0_ok hg hcl (by
        unfold typeRecordPairs
        rw [pmap_apply, sepList_comma_nil (fun k => cons_typeRecordPair' k ind)
          (typeRecordPair_err (by decide) (by decide))]
        rfl)
    have e' : typeRecordConstructor tyRec ind ('{' :: (g ++ '}' :: r)) = .err :=
      typeRecordConstructor_err_record hg hcl (by
        rintro n s h ⟨x, t, rfl, hx, -⟩
        simp only [List.cons_append, List.cons.injEq] at h
        rw [← h.1] at hx
        exact absurd hx (by decide))
    have := typeF_brace (rc := tyRec) (ind := ind) (t := g ++ '}' :: r)
    simp only [List.append_assoc, List.cons_append, List.nil_append] at e ⊢
    rw [this.1, this.2, alt_apply, e', e]
    exact ⟨rfl, rfl⟩
  | @record ind f fs g1 g2 c cs hg1 hf _ hg2 ihf ihs =>
    intro r hr
    have hcl : TyStop ind (g2 ++ '}' :: r) := tyStop_closer hg2 (by decide)
    obtain ⟨k1, k2⟩ := ihs _ hcl
    obtain ⟨k3, k4⟩ := ihf _ k1
    have e : typeRecord tyRec ind (c!"{" ++ g1 ++ (c ++ cs) ++ g2 ++ c!"}" ++ r) =
        .ok (.TypeRecord (f :: fs)) r :=
      bracket_ok hg1 hg2 (by simpa using k4) (noGap_of_ne (by decide)) (by
        unfold typeRecordPairs
        rw [pmap_apply, List.append_assoc, List.append_assoc,
          sepList_comma_ok (fun k => cons_typeRecordPair' k ind) k3 k2
            (commaSep_err hg2 (noGap_of_ne (by decide)) (by decide))]
        rfl)
    have e' : typeRecordConstructor tyRec ind ('{' :: (g1 ++ (c ++ (cs ++ (g2 ++ '}' :: r))))) = .err :=
      typeRecordConstructor_err_record hg1 k4 (by
        cases hf with
        | @field _ n t h1 h2 d hn hh1 hh2 hd =>
          simp only [List.append_assoc, List.cons_append, List.nil_append]
          exact field_no_bar hn hh1)
    have := typeF_brace (rc := tyRec) (ind := ind) (t := g1 ++ (c ++ (cs ++ (g2 ++ '}' :: r))))
    simp only [List.append_assoc, List.cons_append, List.nil_append] at e ⊢
    rw [this.1, this.2, alt_apply, e', e]
    exact ⟨rfl, rfl⟩
  | @tuple0 ind g hg =>
    intro r hr
    have e : typeTuple tyRec ind (c!"(" ++ g ++ c!")" ++ r) = .ok (.TypeTuple []) r := by
      unfold typeTuple
      have k := bracket0_ok (o := '(') (r := r) (cl := ')') (p := sepList (commaSep ind) (tyRec.type_ ind))
        hg (noGap_of_ne (by decide))
        (sepList_comma_nil (fun k => cons_type_ k ind) (type_err (by unfold TyHead; decide)))
      rw [pmap_apply, k]
      rfl
    have := typeF_paren (rc := tyRec) (ind := ind) (t := g ++ ')' :: r)
    simp only [List.append_assoc, List.cons_append, List.nil_append] at e ⊢
    rw [this.1, this.2, alt_apply, e]
    exact ⟨rfl, rfl⟩
  | @tuple ind t ts g1 g2 c cs hg1 hc _ hg2 iht ihs =>
    intro r hr
    have hcl : TyStop ind (g2 ++ ')' :: r) := tyStop_closer hg2 (by decide)
    obtain ⟨k1, k2⟩ := ihs _ hcl
    have k3 := iht _ k1.argEnd
    have k4 := ty_head_noGap (r := cs ++ (g2 ++ ')' :: r)) hc trivial
    have e : typeTuple tyRec ind (c!"(" ++ g1 ++ (c ++ cs) ++ g2 ++ c!")" ++ r) =
        .ok (.TypeTuple (t :: ts)) r := by
      unfold typeTuple
      have k := bracket_ok (o := '(') (r := r) (cl := ')') (c := c ++ cs)
        (p := sepList (commaSep ind) (tyRec.type_ ind)) (v := t :: ts)
        hg1 hg2 (by simpa using k4) (noGap_of_ne (by decide)) (by
        rw [List.append_assoc, List.append_assoc]
        exact sepList_comma_ok (fun k => cons_type_ k ind) ((congrFun (tyRec_type ind) _).trans k3) k2
            (commaSep_err hg2 (noGap_of_ne (by decide)) (by decide)))
      rw [pmap_apply, k]
      rfl
    have := typeF_paren (rc := tyRec) (ind := ind) (t := g1 ++ (c ++ (cs ++ (g2 ++ ')' :: r))))
    simp only [List.append_assoc, List.cons_append, List.nil_append] at e ⊢
    rw [this.1, this.2, alt_apply, e]
    exact ⟨rfl, rfl⟩
  | @parens ind t u g1 g2 w1 w2 c d hg1 hc hw1 hw2 hd hg2 iht ihu =>
    intro r hr
    have hcl : TyStop ind (g2 ++ ')' :: r) := tyStop_closer hg2 (by decide)
    have hok : TyOk ind (c ++ w1 ++ c!"->" ++ w2 ++ d) (.ann (.TypeApplication t u)) := by
      intro r' hr'
      obtain ⟨v, vs, r1, rfl, h1, h2⟩ := ihu r' hr'
      refine ⟨t, v :: vs, w1 ++ c!"->" ++ (w2 ++ (d ++ r')), rfl, ?_, run_cons (fun k => cons_arrowType k ind)
        (r := r1) ?_ h2⟩
      · have := iht (w1 ++ c!"->" ++ (w2 ++ (d ++ r'))) ⟨tyStop_arrow hw1, typeArg_err_arrow hw1⟩
        simpa using this
      · have a1 : spacesAndNewlines (w1 ++ (c!"->" ++ (w2 ++ (d ++ r')))) = _ :=
          spacesAndNewlines_iff.2 ⟨rfl, hw1, next_cons.2 (by decide)⟩
        have a2 : spacesAndNewlines (w2 ++ (d ++ r')) = _ :=
          spacesAndNewlines_iff.2 ⟨rfl, hw2, (ty_head_noGap (r := r') hd trivial).1⟩
        unfold arrowSep
        rw [List.append_assoc, preceded_apply, delimited_apply, a1, andThen_ok, tag_append, andThen_ok,
          a2, andThen_ok, andThen_ok, h1]
    have k3 := hok.ann hcl
    have k4 := ty_head_noGap (r := w1 ++ (c!"->" ++ (w2 ++ (d ++ (g2 ++ ')' :: r))))) hc trivial
    have e : typeParens tyRec ind (c!"(" ++ g1 ++ (c ++ w1 ++ c!"->" ++ w2 ++ d) ++ g2 ++ c!")" ++ r) =
        .ok (.TypeApplication t u) r := by
      unfold typeParens
      exact bracket_ok hg1 hg2 (by simpa using k4) (noGap_of_ne (by decide)) (by
        rw [tyRec_ann]; simpa using k3)
    have e' : typeTuple tyRec ind ('(' :: (g1 ++ (c ++ (w1 ++ (c!"->" ++ (w2 ++ (d ++ (g2 ++ ')' :: r)))))))) =
        .err := by
      have hf := iht (w1 ++ c!"->" ++ (w2 ++ (d ++ (g2 ++ ')' :: r)))) ⟨tyStop_arrow hw1, typeArg_err_arrow hw1⟩
      obtain ⟨o1, e1⟩ := hg1.opt k4
      have hng : NoGap (c!"->" ++ (w2 ++ (d ++ (g2 ++ ')' :: r)))) := ⟨next_cons.2 (by decide), by simp⟩
      have hop : ∃ o s', opt (gap ind .GTE) (w1 ++ (c!"->" ++ (w2 ++ (d ++ (g2 ++ ')' :: r))))) = .ok o s' ∧
          (∀ x, x = ',' ∨ x = ')' → char x s' = .err) := by
        obtain ⟨ls, n, hg⟩ := spaceNl_gap hw1 hng
        rcases err_or_ok (fun k => cons_gap k ind .GTE) (w1 ++ (c!"->" ++ (w2 ++ (d ++ (g2 ++ ')' :: r))))) with
          e | ⟨v, s', e, -⟩
        · refine ⟨none, _, opt_eq_ok.2 (.inr ⟨e, rfl, rfl⟩), ?_⟩
          obtain ⟨hne, hw⟩ := hw1
          cases w1 with
          | nil => exact absurd rfl hne
          | cons y w1 =>
            intro x hx
            refine char_cons_ne _ ?_
            rcases hw y (by simp) with rfl | rfl <;> rcases hx with rfl | rfl <;> decide
        · obtain ⟨rfl, -⟩ := (gap_of_gap hg ind .GTE).1 e
          refine ⟨some v, _, opt_eq_ok.2 (.inl ⟨v, e, rfl⟩), ?_⟩
          intro x hx
          refine char_cons_ne _ ?_
          rcases hx with rfl | rfl <;> decide
      obtain ⟨o, s', h1, h2⟩ := hop
      have hsep : sepList (commaSep ind) (tyRec.type_ ind) (c ++ (w1 ++ (c!"->" ++ (w2 ++ (d ++ (g2 ++ ')' :: r)))))) =
          .ok [t] (w1 ++ (c!"->" ++ (w2 ++ (d ++ (g2 ++ ')' :: r))))) :=
        sepList_comma_ok (fun k => cons_type_ k ind) ((congrFun (tyRec_type ind) _).trans (by simpa using hf)) (.nil _) (by
          unfold commaSep
          rw [delimited_apply, h1, andThen_ok, h2 _ (.inl rfl)]; rfl)
      unfold typeTuple
      rw [pmap_apply, delimited_apply, preceded_apply, char_cons, andThen_ok, e1, andThen_ok, hsep,
        andThen_ok, terminated_apply, h1, andThen_ok, h2 _ (.inr rfl)]
      rfl
    have := typeF_paren (rc := tyRec) (ind := ind)
      (t := g1 ++ (c ++ (w1 ++ (c!"->" ++ (w2 ++ (d ++ (g2 ++ ')' :: r)))))))
    simp only [List.append_assoc, List.cons_append, List.nil_append] at e e' this ⊢
    rw [this.1, this.2, alt_apply, e', e]
    exact ⟨rfl, rfl⟩
  | parAtom _ ih => exact fun r hr => (ih r (.inr hr)).2
  | @parConst ind ns h h' =>
    intro r hr
    obtain ⟨x, t, e, hx⟩ := dotted_head h h'
    have k := moduleName_complete h h' hr
    have hl : ¬ Lower x := by revert hx; unfold Lower Upper; omega
    unfold typeParameter typeConstant
    rw [alt_apply, alt_apply, pmap_apply, k, e, List.cons_append, typeVariable_err hl]
    rfl
  | tyAtom _ ih => exact fun r hr => (ih r (.inr hr.tok)).1
  | @con ind ns ts cs h h' _ ih =>
    intro r hr
    obtain ⟨h1, h2⟩ := ih r hr
    unfold typeF typeConstructorF
    rw [alt_apply, bind_apply, List.append_assoc, moduleName_complete h h' h1, andThen_ok, bind_apply,
      many0_ok_of_run h2 hr.arg]
    rfl
  | args0 => exact fun r hr => ⟨hr.tok, .nil _⟩
  | @args ind i t ts g c cs hg hc _ iht ihs =>
    intro r hr
    obtain ⟨h1, h2⟩ := ihs r hr
    rw [List.append_assoc, List.append_assoc]
    refine ⟨tokenEnd_gap hg, run_cons (fun k => cons_typeArg' k ind) ?_ h2⟩
    unfold typeArg
    rw [bind_apply, hg.gap (ty_head_noGap hc trivial), andThen_ok]
    exact iht _ h1
  | items0 => exact fun r hr => ⟨hr, .nil _⟩
  | @items ind t ts g1 g2 c cs hg1 hg2 hc _ iht ihs =>
    intro r hr
    obtain ⟨h1, h2⟩ := ihs r hr
    refine ⟨by simpa using tyStop_comma (r := g2 ++ (c ++ (cs ++ r))) hg1,
      run_cons (fun k => cons_sep_comma (fun k => cons_type_ k ind) k) ?_ h2⟩
    have := commaSep_ok hg1 hg2 (ty_head_noGap (r := cs ++ r) hc trivial)
    simp only [List.append_assoc] at this ⊢
    rw [preceded_apply, this, andThen_ok]
    exact (congrFun (tyRec_type ind) _).trans (iht _ h1.argEnd)
  | @field ind n t g1 g2 c hn hg1 hg2 hc ih =>
    intro r hr
    refine ⟨?_, ?_⟩
    · obtain ⟨o1, e1⟩ := hg1.opt (r := c!":" ++ (g2 ++ (c ++ r))) (noGap_of_ne (by decide))
      obtain ⟨o2, e2⟩ := hg2.opt (ty_head_noGap (r := r) hc trivial)
      have e0 : loName (n ++ (g1 ++ (c!":" ++ (g2 ++ (c ++ r))))) = _ :=
        loName_complete hn (tokenEnd_ident (tokenEnd_optGap hg1 (next_cons.2 (by decide))))
      have e3 : tyRec.typeAnnotation ind (c ++ r) = .ok t r := ih.ann hr
      unfold typeRecordPair
      simp only [List.append_assoc]
      rw [bind_apply, e0, andThen_ok, bind_apply, e1, andThen_ok, bind_apply, List.cons_append,
        List.nil_append, char_cons, andThen_ok, bind_apply, e2, andThen_ok, bind_apply, e3]
      rfl
    · simp only [List.append_assoc]
      exact loName_noGap hn
  | fields0 => exact fun r hr => ⟨hr, .nil _⟩
  | @fields ind f fs g1 g2 c cs hg1 hg2 hc _ ihf ihs =>
    intro r hr
    obtain ⟨h1, h2⟩ := ihs r hr
    obtain ⟨h3, h4⟩ := ihf _ h1
    refine ⟨by simpa using tyStop_comma (r := g2 ++ (c ++ (cs ++ r))) hg1,
      run_cons (fun k => cons_sep_comma (fun k => cons_typeRecordPair' k ind) k) ?_ h2⟩
    have := commaSep_ok hg1 hg2 h4
    simp only [List.append_assoc] at this ⊢
    rw [preceded_apply, this, andThen_ok]
    exact h3
  | annTy _ ih => exact fun r hr => ⟨_, [], r, rfl, ih r hr.argEnd, .nil _⟩
  | @annArrow ind t u w1 w2 c d hc hw1 hw2 hd iht ihu =>
    intro r' hr'
    obtain ⟨v, vs, r1, rfl, h1, h2⟩ := ihu r' hr'
    refine ⟨t, v :: vs, w1 ++ c!"->" ++ (w2 ++ (d ++ r')), rfl, ?_, run_cons (fun k => cons_arrowType k ind)
      (r := r1) ?_ h2⟩
    · have := iht (w1 ++ c!"->" ++ (w2 ++ (d ++ r'))) ⟨tyStop_arrow hw1, typeArg_err_arrow hw1⟩
      simpa using this
    · have a1 : spacesAndNewlines (w1 ++ (c!"->" ++ (w2 ++ (d ++ r')))) = _ :=
        spacesAndNewlines_iff.2 ⟨rfl, hw1, next_cons.2 (by decide)⟩
      have a2 : spacesAndNewlines (w2 ++ (d ++ r')) = _ :=
        spacesAndNewlines_iff.2 ⟨rfl, hw2, (ty_head_noGap (r := r') hd trivial).1⟩
      unfold arrowSep
      rw [List.append_assoc, preceded_apply, delimited_apply, a1, andThen_ok, tag_append, andThen_ok,
        a2, andThen_ok, andThen_ok, h1]

theorem type_complete {ind : Nat} {c r : Str} {t : Ty} (h : TySrc ind (.ty t) c) (hr : TyStop ind r) :
    type_ ind (c ++ r) = .ok t r := by
  rw [type_unfold]
  exact tySrc_complete h r hr.argEnd

theorem typeAnnotation_complete {ind : Nat} {c r : Str} {t : Ty} (h : TySrc ind (.ann t) c)
    (hr : TyStop ind r) : typeAnnotation ind (c ++ r) = .ok t r := (tySrc_complete h).ann hr

/-- The rest after a closed type does not matter. -/
theorem typeClosed_complete {ind : Nat} {c : Str} {t : Ty} (h : TySrc ind (.atom t) c)
    (ht : ∀ n, t ≠ .TypeVariable n) (r : Str) : type_ ind (c ++ r) = .ok t r := by
  rw [type_unfold]
  exact (tySrc_complete h r (.inl ht)).1

theorem typeAnnotation_err_iff {ind : Nat} {s : Str} : typeAnnotation ind s = .err ↔ type_ ind s = .err := by
  rw [type_unfold, typeAnnotation_unfold]
  constructor
  · intro h
    rw [← sepNonemptyList_err_iff cons_arrowSep (fun k => cons_typeF' k ind)]
    rcases err_or_ok (fun k => cons_sepNonemptyList (cons_arrowSep k).good (cons_typeF' k ind).good) s with
      e | ⟨vs, r', e, -⟩
    · exact e
    · obtain ⟨v, vs, r1, rfl, -⟩ := (sepNonemptyList_iff cons_arrowSep (fun k => cons_typeF' k ind)).1 e
      rw [typeAnnotationF_eq_ok.2 ⟨v, vs, rfl, e⟩] at h
      cases h
  · intro h
    unfold typeAnnotationF
    rw [bind_apply, (sepNonemptyList_err_iff cons_arrowSep (fun k => cons_typeF' k ind)).2 h]
    rfl

/-! ### Well-formed trees are exactly the trees with a text -/

/-- What a category says about its tree. -/
def TyWF : TyCat → Prop
  | .atom t | .ty t | .ann t => WFTy t
  | .par t => WFTy t ∧ ArgShape t
  | .args ts => (∀ t ∈ ts, WFTy t) ∧ ∀ t ∈ ts, ArgShape t
  | .items ts => ∀ t ∈ ts, WFTy t
  | .field f => LoName f.1 ∧ WFTy f.2
  | .fields fs => ∀ f ∈ fs, LoName f.1 ∧ WFTy f.2

theorem tySrc_wf {ind : Nat} {k : TyCat} {c : Str} (h : TySrc ind k c) : TyWF k := by
  induction h with
  | var h => exact .var h
  | extRecord _ hv _ _ _ _ _ ihf ihs =>
    refine .extRecord hv (by simp) ?_ ?_ <;> simp only [List.mem_cons, forall_eq_or_imp]
    · exact ⟨ihf.1, fun f hf => (ihs f hf).1⟩
    · exact ⟨ihf.2, fun f hf => (ihs f hf).2⟩
  | record0 => exact .record (by simp) (by simp)
  | record _ _ _ _ ihf ihs =>
    refine .record ?_ ?_ <;> simp only [List.mem_cons, forall_eq_or_imp]
    · exact ⟨ihf.1, fun f hf => (ihs f hf).1⟩
    · exact ⟨ihf.2, fun f hf => (ihs f hf).2⟩
  | tuple0 => exact .tuple (by simp)
  | tuple _ _ _ _ iht ihs =>
    refine .tuple ?_
    simp only [List.mem_cons, forall_eq_or_imp]
    exact ⟨iht, ihs⟩
  | parens _ _ _ _ _ _ iht ihu => exact .arrow iht ihu
  | parAtom h ih => exact ⟨ih, by cases h <;> trivial⟩
  | parConst h h' => exact ⟨.con h h' (by simp) (by simp), rfl⟩
  | tyAtom _ ih => exact ih
  | con h h' _ ih => exact .con h h' ih.1 ih.2
  | args0 => exact ⟨by simp, by simp⟩
  | args _ _ _ iht ihs =>
    refine ⟨?_, ?_⟩ <;> simp only [List.mem_cons, forall_eq_or_imp]
    · exact ⟨iht.1, ihs.1⟩
    · exact ⟨iht.2, ihs.2⟩
  | items0 => exact by simp [TyWF]
  | items _ _ _ _ iht ihs =>
    simp only [TyWF, List.mem_cons, forall_eq_or_imp]
    exact ⟨iht, ihs⟩
  | field hn _ _ _ ih => exact ⟨hn, ih⟩
  | fields0 => exact by simp [TyWF]
  | fields _ _ _ _ iht ihs =>
    simp only [TyWF, List.mem_cons, forall_eq_or_imp]
    exact ⟨iht, ihs⟩
  | annTy _ ih => exact ih
  | annArrow _ _ _ _ iht ihu => exact .arrow iht ihu

theorem gapTxt_space (ind : Nat) (ir : IR) : GapTxt ind ir ind [' '] :=
  ⟨[], 1, rfl, by simp, by simp, .inl ⟨rfl, rfl⟩⟩

theorem optGapTxt_nil (ind : Nat) (ir : IR) : OptGapTxt ind ir [] := .inl rfl

theorem spaceNl_space : SpaceNl [' '] := ⟨by simp, by simp⟩

/-- A well-formed type has a one-line text that is good at every indentation. -/
theorem wfTy_text {t : Ty} (h : WFTy t) : (∃ c, ∀ ind, TySrc ind (.ann t) c) ∧
    (∃ c, ∀ ind, TySrc ind (.ty t) c) ∧ (ArgShape t → ∃ c, ∀ ind, TySrc ind (.par t) c) := by
  have fields : ∀ fs : List (Name × Ty), (∀ f ∈ fs, LoName f.1) →
      (∀ f ∈ fs, ∃ c, ∀ ind, TySrc ind (.ann f.2) c) → ∃ c, ∀ ind, TySrc ind (.fields fs) c := by
    intro fs h1 h2
    induction fs with
    | nil => exact ⟨[], fun ind => .fields0⟩
    | cons f fs ih =>
      simp only [List.mem_cons, forall_eq_or_imp] at h1 h2
      obtain ⟨cs, hcs⟩ := ih h1.2 h2.2
      obtain ⟨c, hc⟩ := h2.1
      exact ⟨_, fun ind => .fields (.inl rfl) (.inl rfl) (.field h1.1 (.inl rfl) (.inl rfl) (hc ind)) (hcs ind)⟩
  have atom : ∀ t, (∃ c, ∀ ind, TySrc ind (.atom t) c) → (∃ c, ∀ ind, TySrc ind (.ann t) c) ∧
      (∃ c, ∀ ind, TySrc ind (.ty t) c) ∧ (ArgShape t → ∃ c, ∀ ind, TySrc ind (.par t) c) := by
    rintro t ⟨c, hc⟩
    exact ⟨⟨c, fun ind => .annTy (.tyAtom (hc ind))⟩, ⟨c, fun ind => .tyAtom (hc ind)⟩,
      fun _ => ⟨c, fun ind => .parAtom (hc ind)⟩⟩
  induction h with
  | @con ns ts h h' _ hs ih =>
    have : ∃ c, ∀ ind, TySrc ind (.args ts) c := by
      clear fields atom
      induction ts with
      | nil => exact ⟨[], fun ind => .args0⟩
      | cons t ts ih' =>
        simp only [List.mem_cons, forall_eq_or_imp] at hs ih
        rename_i hw
        simp only [List.mem_cons, forall_eq_or_imp] at hw
        obtain ⟨cs, hcs⟩ := ih' hw.2 hs.2 ih.2
        obtain ⟨c, hc⟩ := ih.1.2.2 hs.1
        exact ⟨_, fun ind => .args (gapTxt_space ind .GT) (hc ind) (hcs ind)⟩
    obtain ⟨c, hc⟩ := this
    refine ⟨⟨_, fun ind => .annTy (.con h h' (hc ind))⟩, ⟨_, fun ind => .con h h' (hc ind)⟩, ?_⟩
    intro e
    cases (show ts = [] from e)
    exact ⟨_, fun ind => .parConst h h'⟩
  | var h => exact atom _ ⟨_, fun ind => .var h⟩
  | @extRecord v fs hv hne h1 _ ih =>
    apply atom
    cases fs with
    | nil => exact absurd rfl hne
    | cons f fs =>
      simp only [List.mem_cons, forall_eq_or_imp] at h1 ih
      obtain ⟨cs, hcs⟩ := fields fs h1.2 fun f hf => (ih.2 f hf).1
      obtain ⟨c, hc⟩ := ih.1.1
      exact ⟨_, fun ind => .extRecord (gapTxt_space ind _) hv (gapTxt_space ind _) (gapTxt_space ind _)
        (.field h1.1 (.inl rfl) (.inl rfl) (hc ind)) (hcs ind) (gapTxt_space ind _)⟩
  | @record fs h1 _ ih =>
    apply atom
    cases fs with
    | nil => exact ⟨_, fun ind => .record0 (.inl rfl)⟩
    | cons f fs =>
      simp only [List.mem_cons, forall_eq_or_imp] at h1 ih
      obtain ⟨cs, hcs⟩ := fields fs h1.2 fun f hf => (ih.2 f hf).1
      obtain ⟨c, hc⟩ := ih.1.1
      exact ⟨_, fun ind => .record (.inl rfl)
        (.field h1.1 (.inl rfl) (.inl rfl) (hc ind)) (hcs ind) (.inl rfl)⟩
  | @tuple ts _ ih =>
    apply atom
    cases ts with
    | nil => exact ⟨_, fun ind => .tuple0 (.inl rfl)⟩
    | cons t ts =>
      simp only [List.mem_cons, forall_eq_or_imp] at ih
      have : ∃ c, ∀ ind, TySrc ind (.items ts) c := by
        obtain ⟨-, ih⟩ := ih
        clear fields atom
        rename_i hw
        clear hw
        induction ts with
        | nil => exact ⟨[], fun ind => .items0⟩
        | cons t ts ih' =>
          simp only [List.mem_cons, forall_eq_or_imp] at ih
          obtain ⟨cs, hcs⟩ := ih' ih.2
          obtain ⟨c, hc⟩ := ih.1.2.1
          exact ⟨_, fun ind => .items (.inl rfl) (.inl rfl) (hc ind) (hcs ind)⟩
      obtain ⟨cs, hcs⟩ := this
      obtain ⟨c, hc⟩ := ih.1.2.1
      exact ⟨_, fun ind => .tuple (.inl rfl) (hc ind) (hcs ind) (.inl rfl)⟩
  | @arrow t u _ _ iht ihu =>
    obtain ⟨c, hc⟩ := iht.2.1
    obtain ⟨d, hd⟩ := ihu.1
    obtain ⟨-, h2⟩ := atom (.TypeApplication t u)
      ⟨_, fun ind => .parens (.inl rfl) (hc ind) spaceNl_space spaceNl_space (hd ind) (.inl rfl)⟩
    exact ⟨⟨_, fun ind => .annArrow (hc ind) spaceNl_space spaceNl_space (hd ind)⟩, h2⟩

theorem tyStop_nil (ind : Nat) : TyStop ind [] :=
  ⟨next_nil _, .inl noGap_nil⟩

end ElmParser
