import Verif.Model.Walk
import Verif.Props.Agree

/-! C64: dumping a directory, in terms of the tree of files below it. -/
namespace ElmParser

/-- A name a directory entry can have on Unix. -/
def ValidName (n : Str) : Prop := n ≠ [] ∧ n ≠ c!"." ∧ n ≠ c!".." ∧ '/' ∉ n

/-- A name with the extension `elm`. -/
def ElmName (n : Str) : Prop := ∃ stem, stem ≠ [] ∧ n = stem ++ c!".elm"

mutual
/-- The names of all entries are valid, at any depth. -/
def Node.Named : Node → Prop
  | .file => True
  | .link _ => True
  | .dir es => es.Named
/-- The names of all entries are valid, at any depth. -/
def DirList.Named : DirList → Prop
  | .done => True
  | .failed rest => rest.Named
  | .entry name node rest => (∀ n, name = some n → ValidName n) ∧ node.Named ∧ rest.Named
end

mutual
/-- No directory fails to be listed. -/
def Node.Listed : Node → Prop
  | .file => True
  | .link _ => True
  | .dir es => es.Listed
/-- No directory fails to be listed. -/
def DirList.Listed : DirList → Prop
  | .done => True
  | .failed _ => False
  | .entry _ node rest => node.Listed ∧ rest.Listed
end

/-- The entries of a directory. -/
def DirList.entries : DirList → List (Option Str × Node)
  | .done => []
  | .failed rest => rest.entries
  | .entry name node rest => (name, node) :: rest.entries

mutual
/-- No two entries of a directory have the same name. -/
def Node.Distinct : Node → Prop
  | .file => True
  | .link _ => True
  | .dir es => es.Distinct
/-- No two entries of a directory have the same name. -/
def DirList.Distinct : DirList → Prop
  | .done => True
  | .failed rest => rest.Distinct
  | .entry name node rest => (∀ n node', name = some n → (some n, node') ∉ rest.entries) ∧ node.Distinct ∧ rest.Distinct
end

/-- The names on the way from a directory to something below it that is not a directory. -/
inductive FileAt : DirList → List Str → Prop
  | file {es n} : (some n, .file) ∈ es.entries → FileAt es [n]
  | link {es n} : (some n, .link false) ∈ es.entries → FileAt es [n]
  | dir {es n es' ns} : (some n, .dir es') ∈ es.entries → FileAt es' ns → FileAt es (n :: ns)

/-- The path of what is reached from `d` by the names. -/
def pathOf (d : Str) (ns : List Str) : Str := ns.foldl join d

/-! ### Paths -/

/-- A directory with a slash at its end. -/
def slashed (d : Str) : Str := if d = [] ∨ d.getLast? = some '/' then d else d ++ ['/']

theorem join_eq (d n : Str) : join d n = slashed d ++ n := by
  unfold join slashed
  split <;> simp

theorem slashed_form (d : Str) : slashed d = [] ∨ ∃ d', slashed d = d' ++ ['/'] := by
  unfold slashed
  split
  · next h =>
    rcases h with h | h
    · exact .inl h
    · obtain ⟨d', e⟩ := List.getLast?_eq_some_iff.mp h
      exact .inr ⟨d', e⟩
  · exact .inr ⟨d, rfl⟩

theorem slashed_join {d n : Str} (hn : ValidName n) : slashed (join d n) = join d n ++ ['/'] := by
  have h1 : join d n ≠ [] := by rw [join_eq]; simp [hn.1]
  have h2 : (join d n).getLast? ≠ some '/' := by
    rw [join_eq, List.getLast?_append]
    intro h
    cases hl : n.getLast? with
    | none => exact hn.1 (List.getLast?_eq_none_iff.mp hl)
    | some c =>
      rw [hl] at h
      cases h
      exact hn.2.2.2 (List.mem_of_getLast? hl)
  rw [slashed, if_neg (by simp [h1, h2])]

theorem pathOf_eq {d : Str} {n : Str} {ns : List Str} (h : ∀ m ∈ n :: ns, ValidName m) :
    pathOf d (n :: ns) = slashed d ++ joinSlash (n :: ns) := by
  induction ns generalizing d n with
  | nil => exact join_eq d n
  | cons m ns ih =>
    have hn := h n (by simp)
    have := ih (d := join d n) (n := m) (fun x hx => h x (List.mem_cons_of_mem _ hx))
    show pathOf (join d n) (m :: ns) = _
    rw [this, slashed_join hn, join_eq, joinSlash_cons n _ (by simp)]
    simp

theorem splitSlash_joinSlash : ∀ {ns : List Str}, ns ≠ [] → (∀ m ∈ ns, '/' ∉ m) → splitSlash (joinSlash ns) = ns := by
  intro ns
  induction ns with
  | nil => intro h; exact absurd rfl h
  | cons n ns ih =>
    intro _ h
    cases ns with
    | nil => exact splitSlash_one (h n (by simp))
    | cons m ns =>
      rw [joinSlash_cons n _ (by simp), splitSlash_slash (h n (by simp)), ih (by simp)
        (fun x hx => h x (List.mem_cons_of_mem _ hx))]

theorem pathOf_inj {d n m : Str} {ns ms : List Str} (hn : ∀ x ∈ n :: ns, ValidName x) (hm : ∀ x ∈ m :: ms, ValidName x)
    (h : pathOf d (n :: ns) = pathOf d (m :: ms)) : n :: ns = m :: ms := by
  rw [pathOf_eq hn, pathOf_eq hm] at h
  have := congrArg splitSlash (List.append_cancel_left h)
  rwa [splitSlash_joinSlash (by simp) (fun x hx => (hn x hx).2.2.2),
    splitSlash_joinSlash (by simp) (fun x hx => (hm x hx).2.2.2)] at this

theorem last_component {a b u v : Str} (ha : a = [] ∨ ∃ a', a = a' ++ ['/']) (hb : b = [] ∨ ∃ b', b = b' ++ ['/'])
    (hu : '/' ∉ u) (hv : '/' ∉ v) (h : a ++ u = b ++ v) : u = v := by
  have key : ∀ {a b u v : Str}, (b = [] ∨ ∃ b', b = b' ++ ['/']) → '/' ∉ u → a ++ u = b ++ v →
      a.length ≤ b.length → u = v := by
    intro a b u v hb hu h hl
    obtain ⟨w, rfl⟩ : ∃ w, b = a ++ w := by
      refine ⟨b.drop a.length, ?_⟩
      have := congrArg (List.take a.length) h
      rw [List.take_left, List.take_append_of_le_length hl] at this
      conv => lhs; rw [← List.take_append_drop a.length b, ← this]
    rw [List.append_assoc] at h
    have h := List.append_cancel_left h
    cases w with
    | nil => exact h
    | cons c w =>
      exfalso
      rcases hb with hb | ⟨b', hb⟩
      · simp at hb
      · have hl : (c :: w).getLast? = some '/' := by
          have := congrArg List.getLast? hb
          rw [List.getLast?_append, List.getLast?_concat] at this
          cases hc : (c :: w).getLast? with
          | none => simp at hc
          | some x => rw [hc] at this; exact this
        exact hu (by rw [h]; exact List.mem_append_left _ (List.mem_of_getLast? hl))
  rcases Nat.le_total a.length b.length with hl | hl
  · exact key hb hu h hl
  · exact (key ha hv h.symm hl).symm

theorem elmPath_join {d n : Str} (hn : ValidName n) : ElmPath (join d n) ↔ ElmName n := by
  rw [join_eq]
  constructor
  · rintro ⟨a, stem, tl, e, hs, hs', ha, ht⟩
    rcases List.eq_nil_or_concat tl with rfl | ⟨tl, x, rfl⟩
    · refine ⟨stem, hs, ?_⟩
      refine last_component (slashed_form d) ha hn.2.2.2 ?_ (by simpa using e)
      simp [hs']
    · exfalso
      have hx := ht x (by simp)
      have : n = x := by
        refine last_component (a := slashed d) (b := a ++ stem ++ c!".elm" ++ tl.flatMap ('/' :: ·) ++ ['/'])
          (slashed_form d) (.inr ⟨_, rfl⟩) hn.2.2.2 ?_ ?_
        · rcases hx with rfl | rfl <;> decide
        · rw [e]; simp
      rcases hx with hx | hx
      · exact hn.1 (this.trans hx)
      · exact hn.2.1 (this.trans hx)
  · rintro ⟨stem, hs, rfl⟩
    refine ⟨slashed d, stem, [], by simp, hs, ?_, slashed_form d, by simp⟩
    intro h
    exact hn.2.2.2 (List.mem_append_left _ h)

/-! ### The walk -/

/-- The path of an entry that is no directory. -/
def leafPath : Option Entry → Option Str
  | some ⟨some p, false⟩ => some p
  | _ => none

open Classical in
/-- The paths to be reported. -/
noncomputable def targetsOf (w : List (Option Entry)) : List Str := (w.filterMap leafPath).filter fun p => decide (ElmPath p)

theorem targets_of {w : List (Option Entry)} (h : none ∉ w) : Targets w (targetsOf w) := by
  induction w with
  | nil => exact .done
  | cons e w ih =>
    have hw := ih (fun x => h (List.mem_cons_of_mem _ x))
    cases e with
    | none => exact absurd List.mem_cons_self h
    | some e =>
      obtain ⟨p, b⟩ := e
      have skip : leafPath (some ⟨p, b⟩) = none → (∀ q, ¬Target ⟨p, b⟩ q) →
          Targets (some ⟨p, b⟩ :: w) (targetsOf (some ⟨p, b⟩ :: w)) := by
        intro h1 h2
        have : targetsOf (some ⟨p, b⟩ :: w) = targetsOf w := by simp [targetsOf, h1]
        rw [this]; exact .skip h2 hw
      cases b with
      | true => exact skip (by cases p <;> rfl) (fun q hq => by simp [Target] at hq)
      | false =>
        cases p with
        | none => exact skip rfl (fun q hq => by simp [Target] at hq)
        | some p =>
          by_cases hp : ElmPath p
          · have : targetsOf (some ⟨some p, false⟩ :: w) = p :: targetsOf w := by simp [targetsOf, leafPath, hp]
            rw [this]; exact .visit ⟨rfl, rfl, hp⟩ hw
          · have : targetsOf (some ⟨some p, false⟩ :: w) = targetsOf w := by simp [targetsOf, leafPath, hp]
            rw [this]
            refine .skip ?_ hw
            rintro q ⟨-, h2, h3⟩
            cases h2
            exact hp h3

mutual
theorem walkNode_listed (path : Option Str) : ∀ node : Node, node.Listed → none ∉ walkNode path node
  | .file, _ => by simp [walkNode]
  | .link _, _ => by simp [walkNode]
  | .dir es, h => by
    have := walkEntries_listed path es h
    simp [walkNode, this]
theorem walkEntries_listed (path : Option Str) : ∀ es : DirList, es.Listed → none ∉ walkEntries path es
  | .done, _ => by simp [walkEntries]
  | .failed _, h => h.elim
  | .entry name node rest, h => by
    have h1 := walkNode_listed (joinOpt path name) node h.1
    have h2 := walkEntries_listed path rest h.2
    simp [walkEntries, h1, h2]
end

mutual
theorem walkNode_none : ∀ node : Node, (walkNode none node).filterMap leafPath = []
  | .file => rfl
  | .link _ => rfl
  | .dir es => walkEntries_none es
theorem walkEntries_none : ∀ es : DirList, (walkEntries none es).filterMap leafPath = []
  | .done => rfl
  | .failed rest => walkEntries_none rest
  | .entry name node rest => by
    simp only [walkEntries, joinOpt, List.filterMap_append, walkNode_none node, walkEntries_none rest, List.append_nil]
end

mutual
theorem mem_walkNode (d p : Str) : ∀ node : Node, p ∈ (walkNode (some d) node).filterMap leafPath ↔
    ((node = .file ∨ node = .link false) ∧ p = d) ∨ ∃ es ns, node = .dir es ∧ FileAt es ns ∧ p = pathOf d ns
  | .file => by simp [walkNode, leafPath]
  | .link b => by cases b <;> simp [walkNode, leafPath]
  | .dir es => by
    have := mem_walkEntries d p es
    have e : (walkNode (some d) (.dir es)).filterMap leafPath = (walkEntries (some d) es).filterMap leafPath := rfl
    rw [e, this]
    constructor
    · rintro ⟨ns, h1, h2⟩; exact .inr ⟨es, ns, rfl, h1, h2⟩
    · rintro (⟨h | h, -⟩ | ⟨es', ns, h, h1, h2⟩)
      · cases h
      · cases h
      · cases h; exact ⟨ns, h1, h2⟩
theorem mem_walkEntries (d p : Str) : ∀ es : DirList, p ∈ (walkEntries (some d) es).filterMap leafPath ↔
    ∃ ns, FileAt es ns ∧ p = pathOf d ns
  | .done => by
    constructor
    · intro h; simp [walkEntries] at h
    · rintro ⟨ns, h, -⟩; cases h <;> simp_all [DirList.entries]
  | .failed rest => by
    have e : (walkEntries (some d) (.failed rest)).filterMap leafPath = (walkEntries (some d) rest).filterMap leafPath := rfl
    rw [e, mem_walkEntries d p rest]
    constructor
    · rintro ⟨ns, h, e⟩
      refine ⟨ns, ?_, e⟩
      cases h with
      | file h => exact .file h
      | link h => exact .link h
      | dir h h' => exact .dir h h'
    · rintro ⟨ns, h, e⟩
      refine ⟨ns, ?_, e⟩
      cases h with
      | file h => exact .file h
      | link h => exact .link h
      | dir h h' => exact .dir h h'
  | .entry name node rest => by
    have hr := mem_walkEntries d p rest
    rw [walkEntries, List.filterMap_append, List.mem_append, hr]
    constructor
    · rintro (h | ⟨ns, h, e⟩)
      · cases name with
        | none => rw [joinOpt, walkNode_none] at h; cases h; simp
        | some n =>
          rw [joinOpt, mem_walkNode (join d n) p node] at h
          rcases h with ⟨h | h, e⟩ | ⟨es, ns, h, h', e⟩
          · subst h; exact ⟨[n], .file List.mem_cons_self, e⟩
          · subst h; exact ⟨[n], .link List.mem_cons_self, e⟩
          · subst h; exact ⟨n :: ns, .dir List.mem_cons_self h', e⟩
      · refine ⟨ns, ?_, e⟩
        cases h with
        | file h => exact .file (List.mem_cons_of_mem _ h)
        | link h => exact .link (List.mem_cons_of_mem _ h)
        | dir h h' => exact .dir (List.mem_cons_of_mem _ h) h'
    · rintro ⟨ns, h, e⟩
      cases h with
      | @file _ n h =>
        rcases List.mem_cons.mp h with h | h
        · cases h; exact .inl ((mem_walkNode (join d n) p .file).mpr (.inl ⟨.inl rfl, e⟩))
        · exact .inr ⟨_, .file h, e⟩
      | @link _ n h =>
        rcases List.mem_cons.mp h with h | h
        · cases h; exact .inl ((mem_walkNode (join d n) p (.link false)).mpr (.inl ⟨.inr rfl, e⟩))
        · exact .inr ⟨_, .link h, e⟩
      | @dir _ n es' ns h h' =>
        rcases List.mem_cons.mp h with h | h
        · cases h; exact .inl ((mem_walkNode (join d n) p (.dir es')).mpr (.inr ⟨_, _, rfl, h', e⟩))
        · exact .inr ⟨_, .dir h h', e⟩
end

theorem DirList.Named.entry : ∀ {es : DirList} {n : Str} {node : Node}, es.Named → (some n, node) ∈ es.entries →
    ValidName n ∧ node.Named
  | .done, _, _, _, h => by simp [DirList.entries] at h
  | .failed rest, _, _, hn, h => DirList.Named.entry (es := rest) hn h
  | .entry name node' rest, n, node, hn, h => by
    rcases List.mem_cons.mp h with h | h
    · cases h; exact ⟨hn.1 n rfl, hn.2.1⟩
    · exact DirList.Named.entry (es := rest) hn.2.2 h

theorem FileAt.valid {es : DirList} {ns : List Str} (h : FileAt es ns) (hn : es.Named) :
    ns ≠ [] ∧ ∀ m ∈ ns, ValidName m := by
  induction h with
  | file h => exact ⟨by simp, by simpa using (hn.entry h).1⟩
  | link h => exact ⟨by simp, by simpa using (hn.entry h).1⟩
  | dir h _ ih =>
    have h1 := hn.entry h
    have h2 := ih h1.2
    refine ⟨by simp, ?_⟩
    intro m hm
    rcases List.mem_cons.mp hm with rfl | hm
    · exact h1.1
    · exact h2.2 m hm

theorem FileAt.entry {es : DirList} {n : Str} {ns : List Str} (h : FileAt es (n :: ns)) :
    ∃ node, (some n, node) ∈ es.entries := by
  cases h with
  | file h => exact ⟨_, h⟩
  | link h => exact ⟨_, h⟩
  | dir h _ => exact ⟨_, h⟩

mutual
theorem nodup_walkNode (d : Str) : ∀ node : Node, node.Named → node.Distinct →
    ((walkNode (some d) node).filterMap leafPath).Nodup
  | .file, _, _ => by simp [walkNode, leafPath]
  | .link true, _, _ => List.nodup_nil
  | .link false, _, _ => by simp [walkNode, leafPath]
  | .dir es, hn, hd => nodup_walkEntries d es hn hd
theorem nodup_walkEntries (d : Str) : ∀ es : DirList, es.Named → es.Distinct →
    ((walkEntries (some d) es).filterMap leafPath).Nodup
  | .done, _, _ => by simp [walkEntries]
  | .failed rest, hn, hd => nodup_walkEntries d rest hn hd
  | .entry name node rest, hn, hd => by
    rw [walkEntries, List.filterMap_append]
    have h2 := nodup_walkEntries d rest hn.2.2 hd.2.2
    cases name with
    | none =>
      have e : joinOpt (some d) none = none := rfl
      rw [e, walkNode_none]; simpa using h2
    | some n =>
      have h1 := nodup_walkNode (join d n) node hn.2.1 hd.2.1
      refine List.nodup_append.mpr ⟨h1, h2, ?_⟩
      intro p hp q hq e
      subst e
      obtain ⟨ms, hl, e2⟩ := (mem_walkEntries d p rest).mp hq
      obtain ⟨hne, hv⟩ := hl.valid hn.2.2
      have hvn := hn.1 n rfl
      obtain ⟨ns, hns, e1⟩ : ∃ ns, (∀ m ∈ n :: ns, ValidName m) ∧ p = pathOf d (n :: ns) := by
        rcases (mem_walkNode (join d n) p node).mp hp with ⟨-, e⟩ | ⟨es, ns, e, h, e'⟩
        · exact ⟨[], by simpa using hvn, e⟩
        · subst e
          refine ⟨ns, ?_, e'⟩
          intro m hm
          rcases List.mem_cons.mp hm with rfl | hm
          · exact hvn
          · exact (h.valid hn.2.1).2 m hm
      cases ms with
      | nil => exact hne rfl
      | cons m ms =>
        have := pathOf_inj hns hv (e1.symm.trans e2)
        cases this
        obtain ⟨node', h'⟩ := hl.entry
        exact hd.1 n node' rfl h'
end

/-- The walk of a directory. -/
theorem walk_dir (d : Str) (es : DirList) (h : es.Listed) :
    Targets (walkNode (some d) (.dir es)) (targetsOf (walkEntries (some d) es)) := by
  have := targets_of (walkNode_listed (some d) (.dir es) h)
  exact this

theorem mem_targetsOf {d p : Str} {es : DirList} (hn : es.Named) : p ∈ targetsOf (walkEntries (some d) es) ↔
    ∃ ns n, FileAt es (ns ++ [n]) ∧ ElmName n ∧ p = pathOf d (ns ++ [n]) := by
  simp only [targetsOf, List.mem_filter, mem_walkEntries, decide_eq_true_eq]
  constructor
  · rintro ⟨⟨ns, h, e⟩, hp⟩
    obtain ⟨hne, hv⟩ := h.valid hn
    rcases List.eq_nil_or_concat ns with rfl | ⟨ns, n, rfl⟩
    · exact absurd rfl hne
    · refine ⟨ns, n, by simpa using h, ?_, by simpa using e⟩
      rw [e, List.concat_eq_append, pathOf, List.foldl_append] at hp
      exact (elmPath_join (hv n (by simp))).mp hp
  · rintro ⟨ns, n, h, hp, e⟩
    refine ⟨⟨_, h, e⟩, ?_⟩
    rw [e, pathOf, List.foldl_append]
    exact (elmPath_join ((h.valid hn).2 n (by simp))).mpr hp

/-! ### C64 -/

/-- Dumping a directory is dumping, one after the other, the paths of exactly those files and links to files below it,
at any depth, whose names have the extension `elm`; no path comes twice.  Directories are never dumped, whatever their
names, and links to directories are not followed.  The paths do not depend on `read` and `quiet`. -/
theorem C64_exactly (d : Str) (es : DirList) (hl : es.Listed) (hn : es.Named) (hd : es.Distinct) :
    ∃ ps : List Str, ps.Nodup ∧
      (∀ p, p ∈ ps ↔ ∃ ns n, FileAt es (ns ++ [n]) ∧ ElmName n ∧ p = pathOf d (ns ++ [n])) ∧
      ∀ read quiet, dumpTree read quiet d es = inTurn (ps.map (dumpOne read quiet)) :=
  ⟨_, (nodup_walkEntries d es hn hd).filter _, fun _ => mem_targetsOf hn, fun _ _ =>
    C57_directory rfl (walk_dir d es hl)⟩

/-- Different names lead to different paths. -/
theorem C64_paths (d : Str) (es : DirList) (hn : es.Named) {ns ms : List Str} (h1 : FileAt es ns) (h2 : FileAt es ms)
    (h : pathOf d ns = pathOf d ms) : ns = ms := by
  obtain ⟨a1, a2⟩ := h1.valid hn
  obtain ⟨b1, b2⟩ := h2.valid hn
  cases ns with
  | nil => exact absurd rfl a1
  | cons n ns =>
    cases ms with
    | nil => exact absurd rfl b1
    | cons m ms => exact pathOf_inj a2 b2 h

open Classical in
/-- What becomes of one entry of the directory `d`: a directory is dumped as if it had been given, a file or a link to
one if its name has the extension `elm`. -/
noncomputable def entryOutcome (read : Str → Read) (quiet : Bool) (d : Str) : Option Str × Node → Outcome
  | (some n, .dir es) => dumpTree read quiet (join d n) es
  | (some n, .file) => if ElmName n then dumpOne read quiet (join d n) else ⟨[], .code 0⟩
  | (some n, .link false) => if ElmName n then dumpOne read quiet (join d n) else ⟨[], .code 0⟩
  | _ => ⟨[], .code 0⟩

theorem inTurn_append (as bs : List Outcome) : inTurn (as ++ bs) = inTurn [inTurn as, inTurn bs] := by
  have one : ∀ o : Outcome, inTurn [o] = o := by
    intro o
    simp only [inTurn]
    split
    · next h => cases o; simp_all
    · rfl
  induction as with
  | nil =>
    show inTurn bs = inTurn [⟨[], .code 0⟩, inTurn bs]
    rw [inTurn, one]; simp
  | cons a as ih =>
    rw [List.cons_append, inTurn, ih]
    by_cases h : a.exit = .code 0
    · simp only [h, if_true, inTurn]
      by_cases h' : (inTurn as).exit = .code 0
      · simp only [h', if_true]
        split <;> simp_all
      · simp [h']
    · simp [inTurn, h]

theorem targetsOf_append (a b : List (Option Entry)) : targetsOf (a ++ b) = targetsOf a ++ targetsOf b := by
  simp [targetsOf]

theorem inTurn_cons (o : Outcome) (os : List Outcome) : inTurn (o :: os) = inTurn [o, inTurn os] := by
  have := inTurn_append [o] os
  rw [List.singleton_append] at this
  rw [this]
  congr
  simp only [inTurn]
  split
  · next h => cases o; simp_all
  · rfl

/-- Dumping a directory is dumping its entries in turn. -/
theorem C64_in_turn (read : Str → Read) (quiet : Bool) (d : Str) (es : DirList) (hl : es.Listed) (hn : es.Named) :
    dumpTree read quiet d es = inTurn (es.entries.map (entryOutcome read quiet d)) := by
  have base : ∀ d es, DirList.Listed es →
      dumpTree read quiet d es = inTurn ((targetsOf (walkEntries (some d) es)).map (dumpOne read quiet)) :=
    fun d es hl => C57_directory rfl (walk_dir d es hl)
  rw [base d es hl]
  have step : ∀ (name : Option Str) (node : Node), node.Listed → (∀ n, name = some n → ValidName n) →
      inTurn ((targetsOf (walkNode (joinOpt (some d) name) node)).map (dumpOne read quiet)) =
        entryOutcome read quiet d (name, node) := by
    intro name node hl hv
    have one : ∀ o : Outcome, inTurn [o] = o := by
      intro o
      simp only [inTurn]
      split
      · next h => cases o; simp_all
      · rfl
    cases name with
    | none => simp [joinOpt, targetsOf, walkNode_none, inTurn, entryOutcome]
    | some n =>
      have he := elmPath_join (d := d) (hv n rfl)
      have leaf : inTurn ((targetsOf [some ⟨some (join d n), false⟩]).map (dumpOne read quiet)) =
          entryOutcome read quiet d (some n, .file) := by
        by_cases h : ElmName n
        · simp only [targetsOf, leafPath, List.filterMap_cons, List.filterMap_nil, entryOutcome, h, if_true]
          rw [List.filter_cons_of_pos (by simpa using he.mpr h)]
          exact one _
        · simp only [targetsOf, leafPath, List.filterMap_cons, List.filterMap_nil, entryOutcome, h, if_false]
          rw [List.filter_cons_of_neg (by simpa using fun x => h (he.mp x))]
          rfl
      cases node with
      | file => exact leaf
      | link b =>
        cases b with
        | true => rfl
        | false => exact leaf
      | dir es =>
        rw [entryOutcome, base _ _ hl]
        rfl
  revert hl hn
  induction es using DirList.rec (motive_1 := fun _ => True) with
  | file => trivial
  | link => trivial
  | dir _ _ => trivial
  | done => intro _ _; rfl
  | failed _ _ => intro hl; exact hl.elim
  | entry name node rest _ ih =>
    intro hl hn
    rw [walkEntries, targetsOf_append, List.map_append, inTurn_append, ih hl.2 hn.2.2, step name node hl.1 hn.1,
      DirList.entries, List.map_cons, ← inTurn_cons]

mutual
/-- The tree as if nothing had failed: the entries that were listed. -/
def Node.repaired : Node → Node
  | .file => .file
  | .link b => .link b
  | .dir es => .dir es.repaired
/-- The tree as if nothing had failed: the entries that were listed. -/
def DirList.repaired : DirList → DirList
  | .done => .done
  | .failed rest => rest.repaired
  | .entry name node rest => .entry name node.repaired rest.repaired
end

mutual
theorem walkNode_repaired (path : Option Str) : ∀ node : Node,
    walkNode path node.repaired = (walkNode path node).filter Option.isSome
  | .file => rfl
  | .link _ => rfl
  | .dir es => by simp [Node.repaired, walkNode, walkEntries_repaired path es]
theorem walkEntries_repaired (path : Option Str) : ∀ es : DirList,
    walkEntries path es.repaired = (walkEntries path es).filter Option.isSome
  | .done => rfl
  | .failed rest => by simp [DirList.repaired, walkEntries, walkEntries_repaired path rest]
  | .entry name node rest => by
    simp [DirList.repaired, walkEntries, walkNode_repaired _ node, walkEntries_repaired path rest]
end

theorem targets_takeWhile (w : List (Option Entry)) : Targets w (targetsOf (w.takeWhile Option.isSome)) := by
  induction w with
  | nil => exact .done
  | cons e w ih =>
    cases e with
    | none => exact .error
    | some e =>
      have h1 := targets_of (w := [some e]) (by simp)
      have e1 : targetsOf ((some e :: w).takeWhile Option.isSome) =
          targetsOf [some e] ++ targetsOf (w.takeWhile Option.isSome) := by
        rw [List.takeWhile_cons_of_pos (by rfl), ← targetsOf_append]; rfl
      rw [e1]
      generalize targetsOf [some e] = ps at h1
      cases h1 with
      | skip h h' => cases h'; exact .skip h ih
      | visit h h' => cases h'; exact .visit h ih

theorem targetsOf_filter (w : List (Option Entry)) : targetsOf (w.filter Option.isSome) = targetsOf w := by
  have : (w.filter Option.isSome).filterMap leafPath = w.filterMap leafPath := by
    induction w with
    | nil => rfl
    | cons e w ih =>
      cases e with
      | none => exact ih
      | some e => rw [List.filter_cons_of_pos rfl, List.filterMap_cons, List.filterMap_cons, ih]
  rw [targetsOf, this]; rfl

/-- What is listed before the first failure. -/
inductive Cut : DirList → DirList → Prop
  | here {rest} : Cut (.failed rest) .done
  | later {name node rest rest'} : node.Listed → Cut rest rest' → Cut (.entry name node rest) (.entry name node rest')
  | inside {name es es' rest} : Cut es es' → Cut (.entry name (.dir es) rest) (.entry name (.dir es') .done)

theorem Cut.listed {es es' : DirList} (h : Cut es es') : es'.Listed := by
  induction h with
  | here => trivial
  | later h _ ih => exact ⟨h, ih⟩
  | inside _ ih => exact ⟨ih, trivial⟩

mutual
theorem cut_node : ∀ node : Node, node.Listed ∨ ∃ es es', node = .dir es ∧ Cut es es'
  | .file => .inl trivial
  | .link _ => .inl trivial
  | .dir es => (cut_entries es).elim .inl fun ⟨es', h⟩ => .inr ⟨es, es', rfl, h⟩
theorem cut_entries : ∀ es : DirList, es.Listed ∨ ∃ es', Cut es es'
  | .done => .inl trivial
  | .failed _ => .inr ⟨_, .here⟩
  | .entry name node rest => by
    rcases cut_node node with h | ⟨es, es', rfl, h⟩
    · rcases cut_entries rest with h' | ⟨rest', h'⟩
      · exact .inl ⟨h, h'⟩
      · exact .inr ⟨_, .later h h'⟩
    · exact .inr ⟨_, .inside h⟩
end

theorem Cut.walk {es es' : DirList} (h : Cut es es') : ∀ path,
    ∃ more, walkEntries path es = walkEntries path es' ++ none :: more := by
  induction h with
  | here => intro path; exact ⟨_, rfl⟩
  | later _ _ ih =>
    intro path
    obtain ⟨more, e⟩ := ih path
    exact ⟨more, by simp [walkEntries, e]⟩
  | @inside name es es' rest _ ih =>
    intro path
    obtain ⟨more, e⟩ := ih (joinOpt path name)
    exact ⟨more ++ walkEntries path rest, by simp [walkEntries, walkNode, e]⟩

/-- A directory that cannot be listed, or not to its end, ends the run there: the dump is that of the tree as far as it
was listed before the first failure. -/
theorem C64_failed_listing (es : DirList) (h : ¬es.Listed) :
    ∃ es', Cut es es' ∧ es'.Listed ∧ ∀ read quiet d, dumpTree read quiet d es = dumpTree read quiet d es' := by
  rcases cut_entries es with h' | ⟨es', h'⟩
  · exact absurd h' h
  · refine ⟨es', h', h'.listed, fun read quiet d => ?_⟩
    obtain ⟨more, e⟩ := h'.walk (some d)
    exact C33_walk_error (es := walkNode (some d) (.dir es')) (more := more) read quiet rfl
      (by simp [walkNode, e]) rfl

example : Cut (.entry (some c!"p") (.dir (.entry (some c!"a.elm") .file (.failed .done)))
      (.entry (some c!"z.elm") .file .done))
    (.entry (some c!"p") (.dir (.entry (some c!"a.elm") .file .done)) .done) :=
  .inside (.later trivial .here)

/-- Such a failure is silent: what is printed is the beginning of what would be printed if the entries that were listed
were all there are, and the exit status does not show it: if it is not 0, the run would have ended like this anyway. -/
theorem C64_silent (read : Str → Read) (quiet : Bool) (d : Str) (es : DirList) :
    (dumpTree read quiet d es).out <+: (dumpTree read quiet d es.repaired).out ∧
      ((dumpTree read quiet d es).exit = .code 0 ∨ dumpTree read quiet d es = dumpTree read quiet d es.repaired) := by
  have h1 : dumpTree read quiet d es = _ := C57_directory rfl (targets_takeWhile (walkNode (some d) (.dir es)))
  have h2 : dumpTree read quiet d es.repaired = _ := C57_directory rfl (targets_takeWhile (walkNode (some d) (.dir es.repaired)))
  have e : walkNode (some d) (.dir es.repaired) = (walkNode (some d) (.dir es)).filter Option.isSome :=
    walkNode_repaired (some d) (.dir es)
  rw [e] at h2
  generalize walkNode (some d) (.dir es) = w at h1 h2
  have e2 : (w.filter Option.isSome).takeWhile Option.isSome = w.filter Option.isSome := by
    clear h1 h2 e
    induction w with
    | nil => rfl
    | cons x w ih => cases x <;> simpa using ih
  have e3 : targetsOf (w.filter Option.isSome) =
      targetsOf (w.takeWhile Option.isSome) ++ targetsOf (w.dropWhile Option.isSome) := by
    rw [targetsOf_filter, ← targetsOf_append, List.takeWhile_append_dropWhile]
  rw [e2, e3, List.map_append, inTurn_append, ← h1] at h2
  rw [h2]
  simp only [inTurn]
  split
  · next h => exact ⟨List.prefix_append _ _, .inl h⟩
  · exact ⟨List.prefix_rfl, .inr rfl⟩

/-- A tree with a file, a directory with the extension, a file in it, a hidden file and a link. -/
def exampleTree : DirList :=
  .entry (some c!"b.elm") .file <|
  .entry (some c!"src.elm") (.dir <|
    .entry (some c!"a.elm") .file <|
    .entry (some c!".elm") .file <|
    .entry none .file .done) <|
  .entry (some c!"lib") (.link true) <|
  .entry (some c!"c.elm") (.link false) .done

theorem exampleTree_named : exampleTree.Named := by
  simp [exampleTree, DirList.Named, Node.Named, ValidName]

example : exampleTree.Listed := by simp [exampleTree, DirList.Listed, Node.Listed]
example : exampleTree.Distinct := by
  simp [exampleTree, DirList.Distinct, Node.Distinct, DirList.entries]
  refine ⟨?_, ?_, ?_, ?_⟩ <;> · rintro n node' rfl; simp

/-- The directory `src.elm` is entered and not dumped; the hidden file `.elm` has no extension. -/
example : dumpTree (fun _ => .contents c!"x = 1") true c!"d" exampleTree =
    ⟨[.parsed c!"d/b.elm", .parsed c!"d/src.elm/a.elm", .parsed c!"d/c.elm"], .code 0⟩ := rfl

example : FileAt exampleTree [c!"src.elm", c!"a.elm"] := .dir (.tail _ (.head _)) (.file (.head _))
example : pathOf c!"d/" [c!"src.elm", c!"a.elm"] = c!"d/src.elm/a.elm" := rfl

/-- A directory that cannot be read hides the files after it. -/
example : dumpTree (fun _ => .contents c!"x = 1") true c!"d"
    (.entry (some c!"a.elm") .file <| .entry (some c!"p") (.dir (.failed .done)) <|
      .entry (some c!"z.elm") .file .done) = ⟨[.parsed c!"d/a.elm"], .code 0⟩ := rfl
theorem exampleTree_listed : exampleTree.Listed := by simp [exampleTree, DirList.Listed, Node.Listed]
theorem exampleTree_distinct : exampleTree.Distinct := by
  simp [exampleTree, DirList.Distinct, Node.Distinct, DirList.entries]
  refine ⟨?_, ?_, ?_, ?_⟩ <;> · rintro n node' rfl; simp
example := C64_exactly c!"d" exampleTree exampleTree_listed exampleTree_named exampleTree_distinct
example := C64_paths c!"d" exampleTree exampleTree_named (ns := [c!"src.elm", c!"a.elm"]) (ms := [c!"src.elm", c!"a.elm"])
  (.dir (.tail _ (.head _)) (.file (.head _))) (.dir (.tail _ (.head _)) (.file (.head _))) rfl
example := C64_in_turn (fun _ => .contents c!"x = 1") true c!"d" exampleTree exampleTree_listed exampleTree_named
example := C64_failed_listing (.entry (some c!"a.elm") .file (.entry (some c!"p") (.dir (.failed .done)) .done))
  (by simp [DirList.Listed, Node.Listed])

end ElmParser
