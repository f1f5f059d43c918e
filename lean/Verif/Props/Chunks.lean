import Verif.Spec.Chunks
import Verif.Props.TypeHeader

/-! C82: a file in the usual layout is accepted exactly if each of its declarations is. -/
namespace ElmParser
open Spec

theorem noGap_edge {d b : Str} (h : NoGap d) (hd : d ≠ []) (hb : Next (· = '\n') b) : NoGap (d ++ b) := by
  cases d with
  | nil => exact absurd rfl hd
  | cons c d =>
    refine ⟨next_cons.2 (next_cons (P := fun c => c ≠ ' ' ∧ c ≠ '\n').1 h.1), fun t et => ?_⟩
    obtain ⟨rfl, et2⟩ := List.cons.inj et
    cases d with
    | nil =>
      have et : b = '-' :: t := et2
      subst et
      exact absurd (next_cons.1 hb) (by decide)
    | cons e d =>
      obtain ⟨rfl, -⟩ := List.cons.inj et2
      exact h.2 d rfl

/-- Before a declaration there is no bar. -/
theorem stop_noBar {b : Str} (hb : Next (· = '\n') b) (h : StmtStop b) (ls : List Line) (last : Line) (t : Str) :
    ¬ Gap b ls last ('|' :: t) := by
  intro hg
  rcases h with h | ⟨ls', last', r, hg', h⟩
  · cases b with
    | nil =>
      have := hg.split
      simp at this
    | cons c b =>
      obtain rfl := next_cons.1 hb
      exact absurd (next_cons.1 h) (by decide)
  · obtain ⟨rfl, -⟩ := gap_unique hg hg'
    rcases h with h | ⟨-, -, h⟩
    · exact absurd (next_cons.1 h) (by decide)
    · obtain ⟨x, u, e, hx⟩ := h.head
      cases e
      revert hx; decide

/-- Such a declaration is read before others exactly as it is read alone. -/
theorem C82_alone {c b : Str} (h : Chunk c) (hb : Next (· = '\n') b) (hs : StmtStop b) (hB : Below 1 b) (x : Statement) (r : Str) :
    statement (c ++ b) = .ok x r ↔ ∃ w, statement c = .ok x w ∧ r = w ++ b := by
  cases h with
  | @decl mk h g d i hh hi hg h0 hd hn hu he =>
    rw [C78_declaration hh hi hg (noGap_edge hn hd hb) hu he (hB.mono h0)]
    have := C78_declaration hh hi hg (b := []) (noGap_edge hn hd (next_nil _)) hu he .nil x
    simp only [List.append_nil] at this
    simp only [this]
    constructor
    · rintro ⟨e, w, h1, h2, h3⟩; exact ⟨w, ⟨e, w, h1, h2, rfl⟩, h3⟩
    · rintro ⟨w', ⟨e, w, h1, h2, h4⟩, h3⟩; exact ⟨e, w, h1, h2, h4 ▸ h3⟩
  | @type_ mk h d i hh hd hn hu he =>
    rw [C81_ends hh (noGap_edge hn hd hb) hu he (hB.mono (by omega))]
    have := C81_ends hh (b := []) (noGap_edge hn hd (next_nil _)) hu he .nil x
    simp only [List.append_nil] at this
    simp only [this]
    constructor
    · rintro ⟨e, w, h1, h2, h3⟩; exact ⟨w, ⟨e, w, h1, h2, rfl⟩, h3⟩
    · rintro ⟨w', ⟨e, w, h1, h2, h4⟩, h3⟩; exact ⟨e, w, h1, h2, h4 ▸ h3⟩
  | @custom t h d i hh hd hn hu he =>
    exact C81_custom hh hn (noGap_edge hn hd hb) hu he (.inr ⟨hB.mono (by omega), stop_noBar hb hs⟩) x r

theorem chunk_head {c : Str} (h : Chunk c) (t : Str) : StmtHead (c ++ t) := by
  cases h with
  | decl hh => simp only [List.append_assoc]; exact declHeader_head hh _
  | type_ hh => simp only [List.append_assoc]; exact typeHeader_head hh _
  | custom hh => simp only [List.append_assoc]; exact customHeader_head hh _

theorem chunk_flat {c : Str} (h : Chunk c) {x : Statement} (hx : statement c = .ok x []) : FlatStatement x ∨ Laid c := by
  cases h with
  | @decl mk h g d i hh hi hg h0 hd hn hu he => exact .inr ⟨mk, h, g, i, d, hh, hg, h0, rfl, hn, hu, he⟩
  | @type_ mk h d i hh hd hn hu he =>
    obtain ⟨t, -, rfl⟩ := (C81_type hh hn x []).1 hx
    cases hh <;> exact .inl trivial
  | @custom t h d i hh hd hn hu he =>
    obtain ⟨us, -, rfl⟩ := (customHeader_statement hh hn x []).1 hx
    exact .inl trivial

/-- Nothing is left over of the text, read as a declaration, but what does not begin a declaration. -/
def Sole (c : Str) : Prop := ∀ x r, statement c = .ok x r →
  r = [] ∨ ∃ v y w, r = v ++ y :: w ∧ Whites v ∧ ¬ White y ∧ ¬ StartsStatement (y :: w)

theorem startsStatement_edge {y : Char} {w b : Str} (hb : Next (· = '\n') b) (h : ¬ StartsStatement (y :: w)) :
    ¬ StartsStatement (y :: (w ++ b)) := by
  intro h'
  apply h
  generalize e : y :: (w ++ b) = s at h'
  have dash : ∀ t, w ++ b = '-' :: t → ∃ u, w = '-' :: u := by
    intro t e
    cases w with
    | nil =>
      have e : b = '-' :: t := e
      subst e
      exact absurd (next_cons.1 hb) (by decide)
    | cons c w => obtain ⟨rfl, -⟩ := List.cons.inj e; exact ⟨w, rfl⟩
  cases h' with
  | lower h => cases e; exact .lower h
  | underscore => cases e; exact .underscore
  | paren => cases e; exact .paren
  | line =>
    obtain ⟨rfl, e'⟩ := List.cons.inj e
    obtain ⟨u, rfl⟩ := dash _ e'
    exact .line
  | block =>
    obtain ⟨rfl, e'⟩ := List.cons.inj e
    obtain ⟨u, rfl⟩ := dash _ e'
    exact .block

/-- A declaration, right or wrong, in the usual layout of which nothing but rubbish is left over, or any declaration without
`let` and `case` that is read alone. -/
def Piece (c : Str) : Prop := (Chunk c ∧ Sole c) ∨ ∃ x, statement c = .ok x [] ∧ FlatStatement x

theorem piece_cases {c : Str} (h : Piece c) : (∃ x, statement c = .ok x [] ∧ (FlatStatement x ∨ Laid c)) ∨
    (∀ t, StmtHead (c ++ t)) ∧ ∀ b, Next (· = '\n') b → StmtStop b → Below 1 b → file (c ++ b) = .err := by
  rcases h with ⟨h, hw⟩ | ⟨x, h, hx⟩
  · by_cases hx : ∃ x, statement c = .ok x []
    · obtain ⟨x, hx⟩ := hx
      exact .inl ⟨x, hx, chunk_flat h hx⟩
    · refine .inr ⟨chunk_head h, fun b hb hs hB => file_bad (chunk_head h b) fun x r e => ?_⟩
      obtain ⟨w, h1, rfl⟩ := (C82_alone h hb hs hB x r).1 e
      rcases hw x w h1 with rfl | ⟨v, y, u, rfl, h2, h3, h4⟩
      · exact absurd ⟨x, h1⟩ hx
      · exact ⟨v, y, u ++ b, by simp, h2, h3, startsStatement_edge hb h4⟩
  · exact .inl ⟨x, h, .inl hx⟩

theorem piece_headOk {c : Str} (h : Piece c) : HeadOk c := by
  rcases piece_cases h with ⟨x, h, -⟩ | ⟨h, -⟩
  · exact headOk h
  · exact .inr h

/-- Lists of the same length whose elements are related one by one. -/
inductive OneByOne {α β : Type} (R : α → β → Prop) : List α → List β → Prop
  | nil : OneByOne R [] []
  | cons {a b as bs} : R a b → OneByOne R as bs → OneByOne R (a :: as) (b :: bs)

/-- **C82.** A file that consists of such declarations, right or wrong, each on a new line, is accepted exactly if each of
them alone is a file with one declaration, and its declarations are these. -/
theorem C82_file (p : Str) (ps : List (Nat × Str)) (h : ∀ c ∈ p :: ps.map (·.2), Piece c) (zs : List Statement) :
    file (p ++ rows ps) = .ok zs [] ↔ OneByOne (fun c x => file c = .ok [x] []) (p :: ps.map (·.2)) zs := by
  induction ps generalizing p zs with
  | nil =>
    simp only [rows, List.append_nil, List.map_nil]
    rcases piece_cases (h p (by simp)) with ⟨x, hx, hf⟩ | ⟨hh, hbad⟩
    · have e := C78_join (x, p) [] (by simpa using ⟨hx, hf⟩)
      simp only [List.map_nil, rows, List.append_nil] at e
      rw [e]
      constructor
      · intro h; cases h; exact .cons e .nil
      · intro h
        cases h with
        | cons h1 h2 => cases h2; rw [e] at h1; cases h1; rfl
    · have e := hbad [] (next_nil _) stmtStop_nil .nil
      rw [List.append_nil] at e
      rw [e]
      constructor
      · intro h; cases h
      · intro h
        cases h with
        | cons h1 h2 => rw [e] at h1; cases h1
  | cons q qs ih =>
    obtain ⟨k, c⟩ := q
    have hok : ∀ d ∈ (k, c) :: qs, HeadOk d.2 := fun d hd => piece_headOk (h d.2 (by
      simp only [List.map_cons, List.mem_cons, List.mem_map] at hd ⊢
      rcases hd with rfl | hd
      · exact .inr (.inl rfl)
      · exact .inr (.inr ⟨d, hd, rfl⟩)))
    have hok0 : ∀ d ∈ (0, c) :: qs, HeadOk d.2 := fun d hd => by
      rcases List.mem_cons.1 hd with rfl | hd
      · exact hok (k, c) (by simp)
      · exact hok d (List.mem_cons_of_mem _ hd)
    have ih := ih c (fun d hd => h d (by simp only [List.map_cons]; exact List.mem_cons_of_mem _ hd))
    rcases piece_cases (h p (by simp)) with ⟨x, hx, hf⟩ | ⟨hh, hbad⟩
    · have hr : Ready (c ++ rows qs) := by
        refine ⟨?_, ?_, rows_stop hok0, rows_below hok0⟩
        all_goals
          rcases hok0 (0, c) (by simp) with ⟨t, rfl, -⟩ | h
          first
          | exact next_cons.2 (by decide)
          | exact (h _).white.1
          | exact (h _).white.2
          | simp
        all_goals first
          | exact (h _).white.1
          | exact (h _).white.2
      have e := C78_join (x, p) [] (by simpa using ⟨hx, hf⟩)
      simp only [List.map_nil, rows, List.append_nil] at e
      have step := file_step (k := k) (headOk hx) hr
        (piece_below hx hf (next_cons.2 rfl) (stmtStop_blank _ hr.stop) (below_blank _ hr.below)) zs
      simp only [rows, List.map_cons]
      rw [step]
      constructor
      · rintro ⟨ys, h1, rfl⟩
        exact .cons e ((ih ys).1 h1)
      · intro h
        cases h with
        | cons h1 h2 =>
          rw [e] at h1
          cases h1
          exact ⟨_, (ih _).2 h2, rfl⟩
    · have e1 := hbad (rows ((k, c) :: qs)) (rows_edge _) (rows_stop hok) (rows_below hok)
      have e2 := hbad [] (next_nil _) stmtStop_nil .nil
      rw [List.append_nil] at e2
      rw [e1]
      constructor
      · intro h; cases h
      · intro h
        cases h with
        | cons h1 h2 => rw [e2] at h1; cases h1

/-- **C82.** So one of them that is no file alone makes the whole file fail. -/
theorem C82_refused (p : Str) (ps : List (Nat × Str)) (h : ∀ c ∈ p :: ps.map (·.2), Piece c) :
    file (p ++ rows ps) = .err ↔ ∃ c ∈ p :: ps.map (·.2), file c = .err := by
  have one : ∀ c, Piece c → file c = .err ∨ ∃ x, file c = .ok [x] [] := fun c hc => by
    rcases piece_cases hc with ⟨x, hx, hf⟩ | ⟨-, hbad⟩
    · have e := C78_join (x, c) [] (by simpa using ⟨hx, hf⟩)
      simp only [List.map_nil, rows, List.append_nil] at e
      exact .inr ⟨x, e⟩
    · have e := hbad [] (next_nil _) stmtStop_nil .nil
      rw [List.append_nil] at e
      exact .inl e
  constructor
  · intro he
    by_cases hc : ∃ c ∈ p :: ps.map (·.2), file c = .err
    · exact hc
    · exfalso
      have all : ∀ cs : List Str, (∀ c ∈ cs, Piece c ∧ file c ≠ .err) → ∃ zs, OneByOne (fun c x => file c = .ok [x] []) cs zs := by
        intro cs hcs
        induction cs with
        | nil => exact ⟨[], .nil⟩
        | cons c cs ih =>
          obtain ⟨zs, hz⟩ := ih fun d hd => hcs d (List.mem_cons_of_mem _ hd)
          obtain ⟨h1, h2⟩ := hcs c (by simp)
          obtain ⟨x, hx⟩ := (one c h1).resolve_left h2
          exact ⟨x :: zs, .cons hx hz⟩
      obtain ⟨zs, hz⟩ := all _ fun c hc' => ⟨h c hc', fun e => hc ⟨c, hc', e⟩⟩
      rw [(C82_file p ps h zs).2 hz] at he
      cases he
  · rintro ⟨c, hc, e⟩
    rcases C01_file_total (p ++ rows ps) with h' | ⟨zs, h'⟩
    · exact h'
    · exfalso
      have hz := (C82_file p ps h zs).1 h'
      generalize p :: ps.map (·.2) = cs at hc hz
      clear h'
      induction hz with
      | nil => cases hc
      | cons h1 _ ih =>
        rcases List.mem_cons.1 hc with rfl | hc
        · rw [e] at h1; cases h1
        · exact ih hc

/-- **C82.** Whether such a file is accepted depends neither on the order of the declarations, nor on how often each is there, nor
on the number of blank lines. -/
theorem C82_order (p q : Str) (ps qs : List (Nat × Str)) (h : ∀ c ∈ p :: ps.map (·.2), Piece c)
    (hq : ∀ c, c ∈ q :: qs.map (·.2) ↔ c ∈ p :: ps.map (·.2)) : file (q ++ rows qs) = .err ↔ file (p ++ rows ps) = .err := by
  rw [C82_refused p ps h, C82_refused q qs fun c hc => h c ((hq c).1 hc)]
  exact ⟨fun ⟨c, h1, h2⟩ => ⟨c, (hq c).1 h1, h2⟩, fun ⟨c, h1, h2⟩ => ⟨c, (hq c).2 h1, h2⟩⟩

/-! ### Examples -/

theorem Chunks.ex_good : Piece c!"main =\n    f x" :=
  .inl ⟨.decl (h := c!"main =") (g := c!"\n    ") (d := c!"f x") (.fn Header.ex_plain) (by decide) Header.ex_gap (by decide) (by simp)
    ⟨next_cons.2 (by decide), by simp⟩ (Sh.ex_plain (by decide)) (Of.ex_ends (v := []) rfl (by decide) (by decide)),
    fun x r h => .inl (by cases h; rfl)⟩
theorem Chunks.ex_bad : Piece c!"main =\n    if a then b" :=
  .inl ⟨.decl (h := c!"main =") (g := c!"\n    ") (d := c!"if a then b") (.fn Header.ex_plain) (by decide) Header.ex_gap (by decide)
    (by simp) ⟨next_cons.2 (by decide), by simp⟩ (Sh.ex_plain (by decide)) (Of.ex_ends (v := c!"if a the") rfl (by decide) (by decide)),
    fun x r h => by cases h⟩
theorem Chunks.ex_type : Piece c!"type A = B | c" :=
  .inl ⟨.custom (h := c!"type A = ") (d := c!"B | c") TypeHeader.ex_line (by simp) ⟨next_cons.2 (by decide), by simp⟩
    (Sh.ex_plain (by decide)) (Of.ex_ends (v := c!"B ") rfl (by decide) (by decide)),
    fun x r h => .inr (by
      cases h
      exact ⟨c!" ", '|', c!" c", rfl, fun c hc => by rcases List.mem_singleton.1 hc; decide, by decide, by
        intro h; cases h with | lower h => revert h; decide⟩)⟩
theorem Chunks.ex_port : Piece c!"port p : Int -> Int" :=
  .inl ⟨.type_ (h := c!"port p : ") (d := c!"Int -> Int") TypeHeader.ex_port (by simp) ⟨next_cons.2 (by decide), by simp⟩
    (Sh.ex_plain (by decide)) (Of.ex_ends (v := c!"Int -> ") rfl (by decide) (by decide)), fun x r h => .inl (by cases h; rfl)⟩
theorem Chunks.ex_import : Piece c!"import A" := .inr ⟨.ImportStatement [c!"A"] none none, rfl, trivial⟩

theorem Chunks.ex_all {cs : List Str} (h : ∀ c ∈ cs, c = c!"import A" ∨ c = c!"port p : Int -> Int" ∨ c = c!"main =\n    f x" ∨
    c = c!"main =\n    if a then b" ∨ c = c!"type A = B | c") : ∀ c ∈ cs, Piece c := by
  intro c hc
  rcases h c hc with rfl | rfl | rfl | rfl | rfl
  · exact ex_import
  · exact ex_port
  · exact ex_good
  · exact ex_bad
  · exact ex_type

/-- Three declarations that are right. -/
example := C82_file c!"import A" [(2, c!"port p : Int -> Int"), (1, c!"main =\n    f x")] (Chunks.ex_all (by simp))
/-- Among declarations that are right, one without `else`, and one with a constructor in lower case. -/
example : file (c!"import A" ++ rows [(2, c!"main =\n    if a then b"), (1, c!"port p : Int -> Int")]) = .err :=
  (C82_refused _ _ (Chunks.ex_all (by simp))).2 ⟨c!"main =\n    if a then b", by simp, rfl⟩
example : file (c!"import A" ++ rows [(0, c!"type A = B | c"), (1, c!"main =\n    f x")]) = .err :=
  (C82_refused _ _ (Chunks.ex_all (by simp))).2 ⟨c!"type A = B | c", by simp, rfl⟩
example := C82_order c!"import A" c!"main =\n    f x" [(2, c!"main =\n    f x")] [(0, c!"import A"), (1, c!"import A")]
  (Chunks.ex_all (by simp)) (by intro c; simp only [List.map_cons, List.map_nil, List.mem_cons, List.not_mem_nil, or_false]; exact ⟨fun h => by rcases h with h | h | h <;> simp [h], fun h => by rcases h with h | h <;> simp [h]⟩)
example := C82_alone (c := c!"type A = B | c") (b := c!"\n\n\n-- next\ng = 1")
  (.custom (h := c!"type A = ") (d := c!"B | c") TypeHeader.ex_line (by simp) ⟨next_cons.2 (by decide), by simp⟩
    (Sh.ex_plain (by decide)) (Of.ex_ends (v := c!"B ") rfl (by decide) (by decide))) (next_cons.2 rfl)
  (rows_stop (cs := [(2, c!"-- next"), (0, c!"g = 1")]) (by
    intro c hc
    simp only [List.mem_cons, List.not_mem_nil, or_false] at hc
    rcases hc with rfl | rfl
    · exact headOk (x := .Comment c!" next") rfl
    · exact headOk (x := .Function (.mk none (.mk c!"g" [] (.Integer c!"1")))) rfl)) TypeHeader.ex_below

/-- A text of which something is left over that begins a declaration: here there are two. -/
example : file c!"main =\n    f x\n    y = 3" =
    .ok [.Function (.mk none (.mk c!"main" [] (.Application (.Variable [c!"f"]) (.Variable [c!"x"])))),
      .Function (.mk none (.mk c!"y" [] (.Integer c!"3")))] [] := rfl

end ElmParser
