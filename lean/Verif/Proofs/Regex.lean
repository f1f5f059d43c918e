import Verif.Model.Regex

/-! `Model/Regex.lean` against `Model/Nom.lean`: matches of the regular expressions of the crate. -/
namespace ElmParser
namespace Rx

/-! ### What a match is -/

/-- A match of the expression from one place of the text to another, without any preference. -/
inductive Matches : Re → Pos → Pos → Prop
  | start {s} : Matches .start (0, s) (0, s)
  | cls {neg rs n c s} : inClass neg rs c = true → Matches (.cls neg rs) (n, c :: s) (n + 1, s)
  | eps {p} : Matches .eps p p
  | seq {a b p q r} : Matches a p q → Matches b q r → Matches (.seq a b) p r
  | left {a b p q} : Matches a p q → Matches (.alt a b) p q
  | right {a b p q} : Matches b p q → Matches (.alt a b) p q
  | stop {a p} : Matches (.star a) p p
  | more {a p q r} : Matches a p q → Matches (.star a) q r → Matches (.star a) p r
  | plus {a p q r} : Matches a p q → Matches (.star a) q r → Matches (.plus a) p r

/-- A match consumes a word. -/
theorem Matches.consumes {re p q} (h : Matches re p q) : ∃ w, p.2 = w ++ q.2 ∧ q.1 = p.1 + w.length := by
  induction h with
  | start => exact ⟨[], rfl, rfl⟩
  | cls => rename_i c s _; exact ⟨[c], rfl, rfl⟩
  | eps => exact ⟨[], rfl, rfl⟩
  | seq _ _ h1 h2 =>
    obtain ⟨w1, a1, b1⟩ := h1; obtain ⟨w2, a2, b2⟩ := h2
    exact ⟨w1 ++ w2, by rw [a1, a2, List.append_assoc], by rw [b2, b1, List.length_append]; omega⟩
  | left _ h => exact h
  | right _ h => exact h
  | stop => exact ⟨[], rfl, rfl⟩
  | more _ _ h1 h2 =>
    obtain ⟨w1, a1, b1⟩ := h1; obtain ⟨w2, a2, b2⟩ := h2
    exact ⟨w1 ++ w2, by rw [a1, a2, List.append_assoc], by rw [b2, b1, List.length_append]; omega⟩
  | plus _ _ h1 h2 =>
    obtain ⟨w1, a1, b1⟩ := h1; obtain ⟨w2, a2, b2⟩ := h2
    exact ⟨w1 ++ w2, by rw [a1, a2, List.append_assoc], by rw [b2, b1, List.length_append]; omega⟩

theorem Matches.length_le {re p q} (h : Matches re p q) : q.2.length ≤ p.2.length := by
  obtain ⟨w, a, _⟩ := h.consumes
  rw [a, List.length_append]; omega

theorem Matches.eq_of_length {re p q} (h : Matches re p q) (he : q.2.length = p.2.length) : q = p := by
  obtain ⟨w, a, b⟩ := h.consumes
  have : w = [] := by
    have := congrArg List.length a
    rw [List.length_append] at this
    exact List.length_eq_zero_iff.mp (by omega)
  subst this
  exact Prod.ext (by simpa using b) (by simpa using a.symm)

theorem loop_sound {a : Re} (ha : ∀ p q, q ∈ a.run p → Matches a p q) :
    ∀ n p q, q ∈ loop a.run n p → Matches (.star a) p q := by
  intro n
  induction n with
  | zero =>
    intro p q h
    simp only [loop, List.mem_singleton] at h
    subst h; exact .stop
  | succ n ih =>
    intro p q h
    simp only [loop, List.mem_append, List.mem_flatMap, List.mem_filter, List.mem_singleton] at h
    rcases h with ⟨r, ⟨h1, _⟩, h2⟩ | h
    · exact .more (ha _ _ h1) (ih _ _ h2)
    · subst h; exact .stop

theorem run_sound : ∀ (re : Re) p q, q ∈ re.run p → Matches re p q
  | .start, p, q, h => by
    obtain ⟨n, s⟩ := p
    simp only [Re.run] at h
    split at h
    · rename_i h0
      have h0 : n = 0 := h0
      subst h0
      rw [List.mem_singleton] at h; subst h; exact .start
    · exact absurd h List.not_mem_nil
  | .cls neg rs, (n, s), q, h => by
    cases s with
    | nil => exact absurd h List.not_mem_nil
    | cons c s =>
      simp only [Re.run] at h
      split at h
      · rw [List.mem_singleton] at h; subst h; exact .cls (by assumption)
      · exact absurd h List.not_mem_nil
  | .eps, p, q, h => by
    rw [Re.run, List.mem_singleton] at h; subst h; exact .eps
  | .seq a b, p, q, h => by
    rw [Re.run, List.mem_flatMap] at h
    obtain ⟨r, h1, h2⟩ := h
    exact .seq (run_sound a _ _ h1) (run_sound b _ _ h2)
  | .alt a b, p, q, h => by
    rw [Re.run, List.mem_append] at h
    rcases h with h | h
    · exact .left (run_sound a _ _ h)
    · exact .right (run_sound b _ _ h)
  | .star a, p, q, h => loop_sound (run_sound a) _ p q h
  | .plus a, p, q, h => by
    rw [Re.run, List.mem_flatMap] at h
    obtain ⟨r, h1, h2⟩ := h
    exact .plus (run_sound a _ _ h1) (loop_sound (run_sound a) _ _ _ h2)

theorem self_mem_loop (f : Pos → List Pos) (n : Nat) (p : Pos) : p ∈ loop f n p := by
  cases n <;> simp [loop]

theorem loop_complete {a : Re} (ha : ∀ p q, Matches a p q → q ∈ a.run p) {re p q} (h : Matches re p q) :
    re = .star a → ∀ n, p.2.length ≤ n → q ∈ loop a.run n p := by
  induction h with
  | stop => intro _ n _; exact self_mem_loop _ _ _
  | more h1 h2 ih1 ih =>
    rename_i b p q r
    intro he n hn
    cases he
    by_cases hl : q.2.length = p.2.length
    · have hq := h1.eq_of_length hl
      subst hq
      exact ih rfl n hn
    · have hle := h1.length_le
      cases n with
      | zero => omega
      | succ n =>
        simp only [loop, List.mem_append, List.mem_flatMap, List.mem_filter, decide_eq_true_eq]
        exact .inl ⟨q, ⟨ha _ _ h1, by omega⟩, ih rfl n (by omega)⟩
  | _ => intro he; cases he

theorem run_complete : ∀ (re : Re) p q, Matches re p q → q ∈ re.run p
  | .start, _, _, h => by cases h; simp [Re.run]
  | .cls neg rs, _, _, h => by cases h; rename_i hc; simp [Re.run, hc]
  | .eps, _, _, h => by cases h; simp [Re.run]
  | .seq a b, _, _, h => by
    cases h; rename_i h1 h2
    rw [Re.run, List.mem_flatMap]
    exact ⟨_, run_complete a _ _ h1, run_complete b _ _ h2⟩
  | .alt a b, _, _, h => by
    rw [Re.run, List.mem_append]
    cases h with
    | left h => exact .inl (run_complete a _ _ h)
    | right h => exact .inr (run_complete b _ _ h)
  | .star a, p, q, h => loop_complete (run_complete a) h rfl _ (Nat.le_refl _)
  | .plus a, _, _, h => by
    cases h; rename_i h1 h2
    rw [Re.run, List.mem_flatMap]
    exact ⟨_, run_complete a _ _ h1, loop_complete (run_complete a) h2 rfl _ (Nat.le_refl _)⟩

theorem mem_run_iff (re : Re) (p q : Pos) : q ∈ re.run p ↔ Matches re p q :=
  ⟨run_sound re p q, run_complete re p q⟩

/-! ### Expressions that start with `^` -/

theorem run_anchored_pos (r : Re) (n : Nat) (s : Str) : (Re.seq .start r).run (n + 1, s) = [] := by
  simp [Re.run]

theorem run_anchored_zero (r : Re) (s : Str) : (Re.seq .start r).run (0, s) = r.run (0, s) := by
  simp [Re.run]

theorem find_anchored_pos (r : Re) : ∀ (s : Str) (n : Nat), find (.seq .start r) s (n + 1) = none := by
  intro s
  induction s with
  | nil => intro n; simp only [find, run_anchored_pos]; rfl
  | cons c s ih => intro n; simp only [find, run_anchored_pos]; exact ih (n + 1)

theorem findIter_anchored_pos (r : Re) (k : Nat) (last : Option Nat) (n : Nat) (s : Str) :
    findIter (.seq .start r) k last (n + 1, s) = [] := by
  cases k with
  | zero => rfl
  | succ k => simp only [findIter, find_anchored_pos]

theorem find_anchored_zero (r : Re) (s : Str) :
    find (.seq .start r) s 0 = ((r.run (0, s)).head?).map ((0, s), ·) := by
  cases s with
  | nil => simp only [find, run_anchored_zero]
  | cons c s =>
    simp only [find, run_anchored_zero]
    cases (r.run (0, c :: s)).head? with
    | none => exact find_anchored_pos r s 0
    | some q => rfl

theorem findIter_anchored (r : Re) (k : Nat) (s : Str) :
    findIter (.seq .start r) (k + 1) none (0, s) = ((r.run (0, s)).head?.map ((0, s), ·)).toList := by
  simp only [findIter, find_anchored_zero]
  cases h : (r.run (0, s)).head? with
  | none => rfl
  | some q =>
    obtain ⟨n, t⟩ := q
    cases n with
    | zero =>
      simp only [Option.map_some, Option.toList]
      cases t with
      | nil => simp
      | cons c t => simp [findIter_anchored_pos]
    | succ n =>
      simp [findIter_anchored_pos]

/-- `re_matches!` with an anchored expression: the preferred match at the beginning. -/
theorem reMatches_anchored {pat : Str} {r : Re} (h : parse pat = some (.seq .start r)) (s : Str) :
    reMatches pat s = match (r.run (0, s)).head? with
      | none => .err
      | some q => .ok [s.take q.1] q.2 := by
  simp only [reMatches, h, findIter_anchored]
  cases (r.run (0, s)).head? with
  | none => rfl
  | some q => simp

/-! ### Loops over classes -/

theorem run_cls_cons (neg : Bool) (rs : List (Char × Char)) (n : Nat) (c : Char) (s : Str) :
    (Re.cls neg rs).run (n, c :: s) = if inClass neg rs c then [(n + 1, s)] else [] := rfl

theorem head_loop_cls (neg : Bool) (rs : List (Char × Char)) : ∀ (s : Str) (k n : Nat), s.length ≤ k →
    (loop (Re.cls neg rs).run k (n, s)).head? =
      some (n + (s.takeWhile (inClass neg rs)).length, s.dropWhile (inClass neg rs)) := by
  intro s
  induction s with
  | nil =>
    intro k n _
    cases k <;> simp [loop, Re.run]
  | cons c s ih =>
    intro k n hk
    cases k with
    | zero => simp at hk
    | succ k =>
      simp only [loop, run_cls_cons]
      by_cases hc : inClass neg rs c = true
      · have := ih k (n + 1) (by simpa using hk)
        simp only [hc, if_true]
        rw [List.filter_cons_of_pos (by simp), List.filter_nil, List.flatMap_singleton, List.head?_append, this]
        simp [hc]; omega
      · simp [hc]

theorem take_takeWhile (f : Char → Bool) (s : Str) : s.take (s.takeWhile f).length = s.takeWhile f := by
  induction s with
  | nil => rfl
  | cons c s ih =>
    by_cases hc : f c = true
    · simp [hc, ih]
    · simp [hc]

theorem reMatches_star {pat : Str} {neg rs} (h : parse pat = some (.seq .start (.star (.cls neg rs)))) (s : Str) :
    reMatches pat s = ElmParser.reMatches (reStar (inClass neg rs)) s := by
  rw [reMatches_anchored h]
  simp only [Re.run.eq_6, head_loop_cls neg rs s _ _ (Nat.le_refl _)]
  simp [ElmParser.reMatches, reStar, take_takeWhile]

theorem reMatches_headTail {pat : Str} {n1 r1 n2 r2}
    (h : parse pat = some (.seq .start (.seq (.cls n1 r1) (.star (.cls n2 r2))))) (s : Str) :
    reMatches pat s = ElmParser.reMatches (reHeadTail (inClass n1 r1) (inClass n2 r2)) s := by
  rw [reMatches_anchored h]
  cases s with
  | nil => simp [Re.run, ElmParser.reMatches, reHeadTail]
  | cons c s =>
    by_cases hc : inClass n1 r1 c = true
    · simp only [Re.run.eq_4, Re.run.eq_6, run_cls_cons, hc, if_true, List.flatMap_singleton,
        head_loop_cls n2 r2 s _ _ (Nat.le_refl _)]
      simp [ElmParser.reMatches, reHeadTail, hc, Nat.add_comm _ (List.length _), take_takeWhile]
    · simp [Re.run, hc, ElmParser.reMatches, reHeadTail]

theorem reMatches_plus {pat : Str} {neg rs} (h : parse pat = some (.seq .start (.plus (.cls neg rs)))) (s : Str) :
    reMatches pat s = ElmParser.reMatches (rePlus (inClass neg rs)) s := by
  rw [reMatches_anchored h]
  cases s with
  | nil => simp [Re.run, ElmParser.reMatches, rePlus, reHeadTail]
  | cons c s =>
    by_cases hc : inClass neg rs c = true
    · have := head_loop_cls neg rs s s.length (0 + 1) (Nat.le_refl _)
      have he : (Re.plus (.cls neg rs)).run (0, c :: s) = loop (Re.cls neg rs).run s.length (0 + 1, s) := by
        simp only [Re.run.eq_7, run_cls_cons, hc, if_true, List.flatMap_singleton]
      simp only [he, this]
      simp [ElmParser.reMatches, rePlus, reHeadTail, hc, Nat.add_comm _ (List.length _), take_takeWhile]
    · simp [Re.run, hc, ElmParser.reMatches, rePlus, reHeadTail]

/-! ### Strings -/

/-- `\\\\|\\"|[^"\n]` -/
def stringItem : Re :=
  .alt (.seq (.cls false [('\\', '\\')]) (.cls false [('\\', '\\')]))
    (.alt (.seq (.cls false [('\\', '\\')]) (.cls false [('"', '"')]))
      (.cls true [('"', '"'), ('\n', '\n')]))

theorem inClass_single (a c : Char) : inClass false [(a, a)] c = decide (c = a) := by
  simp only [inClass, List.any_cons, List.any_nil, Bool.or_false, Bool.false_bne]
  by_cases h : c = a
  · subst h; simp
  · have : ¬(a ≤ c ∧ c ≤ a) := fun x => h (Char.le_antisymm x.2 x.1)
    simp [h]; exact fun h1 => Char.not_le.mp fun h2 => this ⟨h1, h2⟩

theorem loop_ne_nil (f : Pos → List Pos) (k : Nat) (p : Pos) : loop f k p ≠ [] := by
  cases k <;> simp [loop]

theorem head_loop_step {f : Pos → List Pos} {p q : Pos} {ps : List Pos} (h : f p = q :: ps)
    (hl : q.2.length < p.2.length) (k : Nat) : (loop f (k + 1) p).head? = (loop f k q).head? := by
  rw [loop, h, List.filter_cons_of_pos (by simpa using hl), List.flatMap_cons, List.append_assoc, List.head?_append]
  cases hq : (loop f k q).head? with
  | none => exact absurd (List.head?_eq_none_iff.mp hq) (loop_ne_nil f k q)
  | some x => rfl

theorem head_loop_stop {f : Pos → List Pos} {p : Pos} (h : f p = []) (k : Nat) : (loop f k p).head? = some p := by
  cases k <;> simp [loop, h]

theorem inClass_other (c : Char) :
    inClass true [('"', '"'), ('\n', '\n')] c = decide (c ≠ '"' ∧ c ≠ '\n') := by
  have h1 := inClass_single '"' c
  have h2 := inClass_single '\n' c
  simp only [inClass, List.any_cons, List.any_nil, Bool.or_false, Bool.false_bne] at h1 h2
  simp only [inClass, List.any_cons, List.any_nil, Bool.or_false, h1, h2, Bool.true_bne]
  by_cases a : c = '"' <;> by_cases b : c = '\n' <;> simp [a, b]

theorem stringItem_nil (n : Nat) : stringItem.run (n, []) = [] := rfl

theorem stringItem_one (n : Nat) (c : Char) :
    stringItem.run (n, [c]) = if c ≠ '"' ∧ c ≠ '\n' then [(n + 1, [])] else [] := by
  simp only [stringItem, Re.run.eq_4, Re.run.eq_5, run_cls_cons, inClass_single, inClass_other]
  by_cases h : c = '\\'
  · subst h; simp [Re.run]
  · simp [h]

theorem stringItem_pair (n : Nat) (c d : Char) (s : Str) (h : c = '\\' ∧ (d = '\\' ∨ d = '"')) :
    ∃ ps, stringItem.run (n, c :: d :: s) = (n + 2, s) :: ps := by
  obtain ⟨h1, h2⟩ := h
  subst h1
  simp only [stringItem, Re.run.eq_4, Re.run.eq_5, run_cls_cons, inClass_single, inClass_other]
  rcases h2 with h2 | h2
  · subst h2; exact ⟨_, by simp [run_cls_cons, inClass_single]; rfl⟩
  · subst h2; exact ⟨_, by simp [run_cls_cons, inClass_single]; rfl⟩

theorem stringItem_char (n : Nat) (c d : Char) (s : Str) (h : ¬(c = '\\' ∧ (d = '\\' ∨ d = '"'))) :
    stringItem.run (n, c :: d :: s) = if c ≠ '"' ∧ c ≠ '\n' then [(n + 1, d :: s)] else [] := by
  simp only [stringItem, Re.run.eq_4, Re.run.eq_5, run_cls_cons, inClass_single, inClass_other]
  by_cases h1 : c = '\\'
  · subst h1
    have h2 : d ≠ '\\' := fun e => h ⟨rfl, .inl e⟩
    have h3 : d ≠ '"' := fun e => h ⟨rfl, .inr e⟩
    simp [run_cls_cons, inClass_single, h2, h3]
  · simp [h1]

theorem head_loop_string (s : Str) : ∀ k n, s.length ≤ k →
    (loop stringItem.run k (n, s)).head? = some (n + (stringBody s).1.length, (stringBody s).2) := by
  fun_induction stringBody s with
  | case1 => intro k n _; rw [head_loop_stop (stringItem_nil n)]; rfl
  | case2 c d s h x ih =>
    intro k n hk
    obtain ⟨ps, hp⟩ := stringItem_pair n c d s h
    cases k with
    | zero => simp at hk
    | succ k =>
      rw [head_loop_step hp (by simp; omega), ih k (n + 2) (by simp at hk; omega)]
      simp [x]; omega
  | case3 c d s h h2 x ih =>
    intro k n hk
    cases k with
    | zero => simp at hk
    | succ k =>
      have hp := stringItem_char n c d s h
      rw [if_pos h2] at hp
      rw [head_loop_step hp (by simp), ih k (n + 1) (by simpa using hk)]
      simp [x]; omega
  | case4 c d s h h2 =>
    intro k n hk
    have hp := stringItem_char n c d s h
    rw [if_neg h2] at hp
    rw [head_loop_stop hp]; rfl
  | case5 c h =>
    intro k n hk
    cases k with
    | zero => simp at hk
    | succ k =>
      have hp := stringItem_one n c
      rw [if_pos h] at hp
      rw [head_loop_step hp (by simp), head_loop_stop (stringItem_nil _)]; rfl
  | case6 c h =>
    intro k n hk
    have hp := stringItem_one n c
    rw [if_neg h] at hp
    rw [head_loop_stop hp]; rfl

theorem stringBody_append (s : Str) : (stringBody s).1 ++ (stringBody s).2 = s := by
  fun_induction stringBody s <;> simp_all +zetaDelta

theorem reMatches_string {pat : Str} (h : parse pat = some (.seq .start (.star stringItem))) (s : Str) :
    reMatches pat s = ElmParser.reMatches (fun s => some (stringBody s)) s := by
  rw [reMatches_anchored h]
  simp only [Re.run.eq_6, head_loop_string s _ _ (Nat.le_refl _)]
  have : s.take (stringBody s).1.length = (stringBody s).1 := by
    have := stringBody_append s
    generalize stringBody s = x at this
    subst this; simp
  simp [ElmParser.reMatches, this]

/-! ### The classes of the source -/

theorem class_lower : inClass false [('a', 'z')] = isLower := by
  funext c; simp [inClass, isLower]

theorem class_upper : inClass false [('A', 'Z')] = isUpper := by
  funext c; simp [inClass, isUpper]

theorem class_ident : inClass false [('a', 'z'), ('A', 'Z'), ('0', '9'), ('_', '_')] = isIdent := by
  funext c
  have h := inClass_single '_' c
  simp only [inClass, List.any_cons, List.any_nil, Bool.or_false, Bool.false_bne] at h
  simp only [inClass, List.any_cons, List.any_nil, Bool.or_false, Bool.false_bne, h, isIdent, isLower, isUpper, isDigit]
  simp [Bool.or_assoc]
  rfl

theorem class_tyVar : inClass false [('a', 'z'), ('1', '9'), ('_', '_')] = isTyVarChar := by
  funext c
  have h := inClass_single '_' c
  simp only [inClass, List.any_cons, List.any_nil, Bool.or_false, Bool.false_bne] at h
  simp only [inClass, List.any_cons, List.any_nil, Bool.or_false, Bool.false_bne, h, isTyVarChar, isLower]
  simp [Bool.or_assoc]
  rfl

theorem inClass_list (cs : List Char) (c : Char) : inClass false (cs.map fun a => (a, a)) c = decide (c ∈ cs) := by
  induction cs with
  | nil => rfl
  | cons a cs ih =>
    have h := inClass_single a c
    simp only [inClass, List.any_cons, List.any_nil, Bool.or_false, Bool.false_bne] at h
    simp only [inClass, Bool.false_bne] at ih
    simp only [inClass, List.map_cons, List.any_cons, Bool.false_bne, ih, h]
    simp

theorem class_op : inClass false (c!"-+\\/*=.$<>:&|^?%#@~!".map fun a => (a, a)) = isOpChar := by
  funext c; rw [inClass_list]; rfl

theorem class_not (a : Char) : inClass true [(a, a)] = fun c => c != a := by
  funext c
  have h := inClass_single a c
  simp only [inClass, List.any_cons, List.any_nil, Bool.or_false, Bool.false_bne] at h
  simp only [inClass, List.any_cons, List.any_nil, Bool.or_false, h, Bool.true_bne]
  by_cases e : c = a <;> simp [e]

/-! ### The patterns of the source -/

theorem parse_loName : parse c!"^([a-z][a-zA-Z0-9_]*)" =
    some (.seq .start (.seq (.cls false [('a', 'z')])
      (.star (.cls false [('a', 'z'), ('A', 'Z'), ('0', '9'), ('_', '_')])))) := by rfl

theorem parse_upName : parse c!"^([A-Z][a-zA-Z0-9_]*)" =
    some (.seq .start (.seq (.cls false [('A', 'Z')])
      (.star (.cls false [('a', 'z'), ('A', 'Z'), ('0', '9'), ('_', '_')])))) := by rfl

theorem parse_tyVar : parse c!"^([a-z][a-z1-9_]*)" =
    some (.seq .start (.seq (.cls false [('a', 'z')])
      (.star (.cls false [('a', 'z'), ('1', '9'), ('_', '_')])))) := by rfl

theorem parse_op : parse c!"^([-+\\\\-\\\\/*=.$<>:&|^?%#@~!]+)" =
    some (.seq .start (.plus (.cls false (c!"-+\\/*=.$<>:&|^?%#@~!".map fun a => (a, a))))) := by rfl

theorem parse_line : parse c!"^(.*)" = some (.seq .start (.star (.cls true [('\n', '\n')]))) := by rfl

theorem parse_multi : parse c!"^([^\"]*)" = some (.seq .start (.star (.cls true [('"', '"')]))) := by rfl

theorem parse_string : parse c!"^(\\\\\\\\|\\\\\"|[^\"\\n])*" = some (.seq .start (.star stringItem)) := by rfl

theorem re_loName : reMatches c!"^([a-z][a-zA-Z0-9_]*)" = ElmParser.reMatches (reHeadTail isLower isIdent) := by
  funext s; rw [reMatches_headTail parse_loName, class_lower, class_ident]

theorem re_upName : reMatches c!"^([A-Z][a-zA-Z0-9_]*)" = ElmParser.reMatches (reHeadTail isUpper isIdent) := by
  funext s; rw [reMatches_headTail parse_upName, class_upper, class_ident]

theorem re_tyVar : reMatches c!"^([a-z][a-z1-9_]*)" = ElmParser.reMatches (reHeadTail isLower isTyVarChar) := by
  funext s; rw [reMatches_headTail parse_tyVar, class_lower, class_tyVar]

theorem re_op : reMatches c!"^([-+\\\\-\\\\/*=.$<>:&|^?%#@~!]+)" = ElmParser.reMatches (rePlus isOpChar) := by
  funext s; rw [reMatches_plus parse_op, class_op]

theorem re_line : reMatches c!"^(.*)" = ElmParser.reMatches reLine := by
  funext s; rw [reMatches_star parse_line, class_not]; rfl

theorem re_multi : reMatches c!"^([^\"]*)" = ElmParser.reMatches (reStar fun c => c != '"') := by
  funext s; rw [reMatches_star parse_multi, class_not]

theorem re_string : reMatches c!"^(\\\\\\\\|\\\\\"|[^\"\\n])*" =
    ElmParser.reMatches fun s => some (stringBody s) := by
  funext s; rw [reMatches_string parse_string]

/-! ### The longest match -/

theorem Matches.star_cls_le {re p q} (h : Matches re p q) : ∀ neg rs, re = .star (.cls neg rs) →
    q.1 ≤ p.1 + (p.2.takeWhile (inClass neg rs)).length := by
  induction h with
  | stop => intro _ _ _; omega
  | more h1 h2 ih1 ih =>
    intro neg rs he
    cases he
    have := ih neg rs rfl
    clear ih ih1
    cases h1
    rename_i hc
    simp only [List.takeWhile_cons, hc, if_true, List.length_cons] at this ⊢
    omega
  | _ => intro _ _ he; cases he

theorem find_some {re : Re} : ∀ {s : Str} {n : Nat} {a b : Pos}, find re s n = some (a, b) →
    (∃ w, s = w ++ a.2 ∧ a.1 = n + w.length) ∧ (re.run a).head? = some b ∧
      ∀ u v, s = u ++ v → n + u.length < a.1 → ∀ q, ¬Matches re (n + u.length, v) q := by
  intro s
  induction s with
  | nil =>
    intro n a b h
    simp only [find, Option.map_eq_some_iff] at h
    obtain ⟨q, h1, h2⟩ := h
    cases h2
    refine ⟨⟨[], rfl, rfl⟩, h1, ?_⟩
    intro u v _ hl
    have hl : n + u.length < n := hl
    omega
  | cons c s ih =>
    intro n a b h
    simp only [find] at h
    cases hr : (re.run (n, c :: s)).head? with
    | some q =>
      rw [hr] at h
      cases h
      refine ⟨⟨[], rfl, rfl⟩, hr, ?_⟩
      intro u v _ hl
      have hl : n + u.length < n := hl
      omega
    | none =>
      rw [hr] at h
      obtain ⟨⟨w, h1, h2⟩, h3, h4⟩ := ih h
      refine ⟨⟨c :: w, by rw [h1]; rfl, by rw [h2, List.length_cons]; omega⟩, h3, ?_⟩
      intro u v hu hl q hq
      cases u with
      | nil =>
        simp only [List.nil_append] at hu
        subst hu
        have := (mem_run_iff re _ _).mpr hq
        rw [show n + ([] : Str).length = n from rfl, List.head?_eq_none_iff.mp hr] at this
        exact List.not_mem_nil this
      | cons d u =>
        simp only [List.cons_append, List.cons.injEq] at hu
        simp only [List.length_cons] at hl hq
        exact h4 u v hu.2 (by omega) q (by rw [show n + 1 + u.length = n + (u.length + 1) by omega]; exact hq)

theorem find_none {re : Re} : ∀ {s : Str} {n : Nat}, find re s n = none →
    ∀ u v, s = u ++ v → ∀ q, ¬Matches re (n + u.length, v) q := by
  intro s
  induction s with
  | nil =>
    intro n h u v hu q hq
    obtain ⟨rfl, rfl⟩ := List.append_eq_nil_iff.mp hu.symm
    simp only [find, Option.map_eq_none_iff] at h
    have := (mem_run_iff re _ _).mpr hq
    rw [show n + ([] : Str).length = n from rfl, List.head?_eq_none_iff.mp h] at this
    exact List.not_mem_nil this
  | cons c s ih =>
    intro n h u v hu q hq
    simp only [find] at h
    cases hr : (re.run (n, c :: s)).head? with
    | some q => rw [hr] at h; cases h
    | none =>
      rw [hr] at h
      cases u with
      | nil =>
        simp only [List.nil_append] at hu
        subst hu
        have := (mem_run_iff re _ _).mpr hq
        rw [show n + ([] : Str).length = n from rfl, List.head?_eq_none_iff.mp hr] at this
        exact List.not_mem_nil this
      | cons d u =>
        simp only [List.cons_append, List.cons.injEq] at hu
        simp only [List.length_cons] at hq
        exact ih h u v hu.2 q (by rw [show n + 1 + u.length = n + (u.length + 1) by omega]; exact hq)

end Rx
end ElmParser
