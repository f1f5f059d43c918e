import Verif.Proofs.Unfold

/-! When the order of the alternatives of an `alt!` matters. -/
namespace ElmParser

variable {α : Type}

/-- Specification side: the answer of the first parser of the list that does not fail. -/
def choice (l : List (Parser α)) : Parser α := fun s =>
  match l with
  | [] => .err
  | p :: l => match p s with
    | .err => choice l s
    | x => x

/-- The list of alternatives in the order given by the positions `σ`. -/
def reorder (σ : List Nat) (l : List (Parser α)) : List (Parser α) := σ.filterMap fun i => l[i]?

theorem choice_cons (p : Parser α) (l : List (Parser α)) (s : Str) : choice (p :: l) s = (p s).orElse (choice l s) := by
  rw [choice]
  cases p s <;> rfl

theorem choice_one (p : Parser α) : choice [p] = p := by
  funext s
  rw [choice_cons]
  cases p s <;> rfl

theorem choice_alt (p : Parser α) (l : List (Parser α)) : choice (p :: l) = (p </> choice l) := by
  funext s
  rw [choice_cons]; rfl

/-- All parsers of the list fail, or the answer is that of one which comes after failing ones. -/
theorem choice_first (A : Nat → Parser α) (l : List Nat) (s : Str) :
    (choice (l.map A) s = .err ∧ ∀ i ∈ l, A i s = .err) ∨
      ∃ l1 p l2, l = l1 ++ p :: l2 ∧ (∀ i ∈ l1, A i s = .err) ∧ A p s ≠ .err ∧ choice (l.map A) s = A p s := by
  induction l with
  | nil => exact .inl ⟨rfl, by simp⟩
  | cons i l ih =>
    rw [List.map_cons, choice_cons]
    by_cases h : A i s = .err
    · rw [h]
      rcases ih with ⟨e, h'⟩ | ⟨l1, p, l2, rfl, h1, h2, h3⟩
      · refine .inl ⟨by rw [e]; rfl, ?_⟩
        intro j hj
        rcases List.mem_cons.1 hj with rfl | hj
        · exact h
        · exact h' j hj
      · refine .inr ⟨i :: l1, p, l2, rfl, ?_, h2, by rw [h3]; rfl⟩
        intro j hj
        rcases List.mem_cons.1 hj with rfl | hj
        · exact h
        · exact h1 j hj
    · refine .inr ⟨[], i, l, rfl, by simp, h, ?_⟩
      cases e : A i s with
      | err => exact absurd e h
      | _ => rfl

/-- If the first of two positions comes first, and the second one is preceded by `l1` only, the
first one is among them. -/
theorem before_mem {p q : Nat} {l1 l2 : List Nat} (hn : (l1 ++ p :: l2).Nodup) (hpq : q ≠ p)
    (h : [q, p].Sublist (l1 ++ p :: l2)) : q ∈ l1 := by
  induction l1 with
  | nil =>
    exfalso
    rw [List.nil_append] at h hn
    cases h with
    | cons _ h => exact (List.nodup_cons.1 hn).1 (h.subset (by simp))
    | cons_cons _ h => exact hpq rfl
  | cons x l1 ih =>
    rw [List.cons_append] at h hn
    cases h with
    | cons _ h => exact List.mem_cons_of_mem _ (ih (List.nodup_cons.1 hn).2 h)
    | cons_cons _ h => exact List.mem_cons_self

theorem choice_perm (A : Nat → Parser α) {n : Nat} {σ : List Nat} (hσ : σ.Perm (List.range n)) (s : Str)
    (h : ∀ i j, i < j → j < n → A i s ≠ .err → A j s ≠ .err → A i s = A j s ∨ [i, j].Sublist σ) :
    choice (σ.map A) s = choice ((List.range n).map A) s := by
  have hnd : σ.Nodup := hσ.nodup_iff.2 List.nodup_range
  rcases choice_first A (List.range n) s with ⟨e, h0⟩ | ⟨l1, q, l2, e, h1, h2, h3⟩
  · rcases choice_first A σ s with ⟨e', -⟩ | ⟨m1, p, m2, rfl, -, h5, -⟩
    · rw [e, e']
    · exact absurd (h0 p (hσ.subset (by simp))) h5
  · rcases choice_first A σ s with ⟨-, h4⟩ | ⟨m1, p, m2, rfl, h4, h5, h6⟩
    · exact absurd (h4 q (hσ.symm.subset (by rw [e]; simp))) h2
    · rw [h3, h6]
      have hp : p < n := List.mem_range.1 (hσ.subset (by simp))
      have hq : q < n := List.mem_range.1 (by rw [e]; simp)
      rcases Nat.lt_trichotomy p q with hlt | rfl | hgt
      · exfalso
        have hs : (List.range n).Pairwise (· < ·) := List.pairwise_lt_range
        rw [e] at hs
        have hpm : p ∈ l1 ++ q :: l2 := by rw [← e]; exact List.mem_range.2 hp
        rcases List.mem_append.1 hpm with hpm | hpm
        · exact h5 (h1 p hpm)
        · rcases List.mem_cons.1 hpm with rfl | hpm
          · omega
          · have := (List.pairwise_cons.1 (List.pairwise_append.1 hs).2.1).1 p hpm
            omega
      · rfl
      · rcases h q p hgt hp h2 h5 with h | h
        · exact h.symm
        · exact absurd (h4 q (before_mem hnd (by omega) h)) h2

theorem choice_reorder {l : List (Parser α)} {σ : List Nat} (hσ : σ.Perm (List.range l.length)) (s : Str)
    (h : ∀ i j p q, i < j → l[i]? = some p → l[j]? = some q → p s ≠ .err → q s ≠ .err →
      p s = q s ∨ [i, j].Sublist σ) :
    choice (reorder σ l) s = choice l s := by
  have hmap : ∀ τ : List Nat, (∀ i ∈ τ, i < l.length) →
      reorder τ l = τ.map fun i => (l[i]?).getD fun _ => .err := by
    intro τ hτ
    unfold reorder
    induction τ with
    | nil => rfl
    | cons i τ ih =>
      have hi := hτ i (by simp)
      rw [List.filterMap_cons, List.getElem?_eq_getElem hi, List.map_cons, List.getElem?_eq_getElem hi]
      simp only [Option.getD_some]
      rw [ih fun j hj => hτ j (by simp [hj])]
  have hid : (List.range l.length).map (fun i => (l[i]?).getD fun _ => .err) = l := by
    apply List.ext_getElem
    · simp
    · intro i h1 h2
      simp [List.getElem?_eq_getElem h2]
  rw [hmap σ fun i hi => List.mem_range.1 (hσ.subset hi), choice_perm _ hσ s, hid]
  intro i j hij hj
  have hi : i < l.length := by omega
  simp only [List.getElem?_eq_getElem hi, List.getElem?_eq_getElem hj, Option.getD_some]
  exact fun h1 h2 => h i j _ _ hij (List.getElem?_eq_getElem hi) (List.getElem?_eq_getElem hj) h1 h2

/-- If only two alternatives answer on a text, and differently, their order shows. -/
theorem order_needed {l : List (Parser α)} {σ : List Nat} (hσ : σ.Perm (List.range l.length)) {s : Str} {i j : Nat}
    {p q : Parser α} (hi : l[i]? = some p) (hj : l[j]? = some q) (hp : p s ≠ .err) (hq : q s ≠ .err) (hpq : p s ≠ q s)
    (ho : ∀ k x, l[k]? = some x → x s ≠ .err → k = i ∨ k = j) (h : choice (reorder σ l) s = p s) :
    [i, j].Sublist σ := by
  have hmem : ∀ k ∈ σ, k < l.length := fun k hk => List.mem_range.1 (hσ.subset hk)
  have hmap : reorder σ l = σ.map fun k => (l[k]?).getD fun _ => .err := by
    unfold reorder
    clear h hσ
    induction σ with
    | nil => rfl
    | cons k σ ih =>
      have hk := hmem k (by simp)
      rw [List.filterMap_cons, List.getElem?_eq_getElem hk, List.map_cons, List.getElem?_eq_getElem hk]
      simp only [Option.getD_some]
      rw [ih fun m hm => hmem m (by simp [hm])]
  rw [hmap] at h
  have hlt : ∀ {k x}, l[k]? = some x → k < l.length := fun h => (List.getElem?_eq_some_iff.1 h).1
  have hjm : j ∈ σ := hσ.symm.subset (List.mem_range.2 (hlt hj))
  rcases choice_first (fun k => (l[k]?).getD fun _ => .err) σ s with ⟨e, -⟩ | ⟨m1, k, m2, rfl, h4, h5, h6⟩
  · rw [e] at h; exact absurd h.symm hp
  · rw [h6] at h
    have hk := hmem k (by simp)
    simp only [List.getElem?_eq_getElem hk, Option.getD_some] at h h5
    have hki : k = i := by
      rcases ho k _ (List.getElem?_eq_getElem hk) h5 with e | rfl
      · exact e
      · rw [List.getElem?_eq_getElem hk] at hj
        rw [Option.some.inj hj] at h
        exact absurd h.symm hpq
    subst hki
    rcases List.mem_append.1 hjm with hm | hm
    · have := h4 j hm
      simp only [hj, Option.getD_some] at this
      exact absurd this hq
    · rcases List.mem_cons.1 hm with rfl | hm
      · rw [hi] at hj
        exact absurd (by rw [Option.some.inj hj]) hpq
      · exact (List.Sublist.cons_cons _ (List.singleton_sublist.2 hm)).trans (List.sublist_append_right _ _)

end ElmParser
