import Verif.Proofs.Build

/-!
# Columns of guarded machines
-/

set_option linter.unusedSectionVars false

namespace Verif

open GExpr

section
variable {p : ℕ} [Fact p.Prime]

theorem mem_refs_toConstraint {T R : Type} {e : AlgExpr T R} {v : R} :
    v ∈ e.toConstraint.refs ↔ v ∈ e.refs := by
  cases e <;> rfl

theorem refs_canonicalize {e : AlgExpr (ZMod p) ℕ} {v : ℕ} (h : v ∈ (canonicalize e).refs) :
    v ∈ e.refs :=
  vars_algebraicToGrouped e v ((mem_refs_groupedToAlgebraic v _).1 h)

theorem refs_addGuardsConstraint {iv : AlgExpr (ZMod p) ℕ} {v : ℕ} :
    ∀ {e e' : AlgExpr (ZMod p) ℕ}, addGuardsConstraint iv e = .ok e' → v ∈ e'.refs →
      v ∈ e.refs ∨ v ∈ iv.refs := by
  intro e
  induction e with
  | reference r =>
    intro e' h hv
    rw [addGuardsConstraint, satisfiesZeroWitness_eq] at h
    simp only [bind, Except.bind, pure, Except.pure] at h
    split_ifs at h <;> cases h <;> exact Or.inl hv
  | number n =>
    intro e' h hv
    rw [addGuardsConstraint, satisfiesZeroWitness_eq] at h
    simp only [bind, Except.bind, pure, Except.pure] at h
    split_ifs at h <;> cases h
    · exact Or.inl hv
    · simpa [AlgExpr.refs] using hv
  | minus e ih =>
    intro e' h hv
    rw [addGuardsConstraint, satisfiesZeroWitness_eq] at h
    simp only [bind, Except.bind, pure, Except.pure] at h
    split_ifs at h
    · cases h
      exact Or.inl hv
    · cases h1 : addGuardsConstraint iv e with
      | error x => rw [h1] at h; cases h
      | ok e1 =>
        rw [h1] at h
        cases h
        exact ih h1 hv
  | binary l op r ihl ihr =>
    intro e' h hv
    rw [addGuardsConstraint, satisfiesZeroWitness_eq] at h
    simp only [bind, Except.bind, pure, Except.pure] at h
    split_ifs at h
    · cases h
      exact Or.inl hv
    · cases h1 : addGuardsConstraint iv l with
      | error x => rw [h1] at h; cases h
      | ok l1 =>
        rw [h1] at h
        cases op with
        | mul =>
          cases h
          rcases List.mem_append.1 hv with hv | hv
          · exact (ihl h1 hv).imp (List.mem_append_left _) id
          · exact Or.inl (List.mem_append_right _ hv)
        | add | sub =>
          cases h2 : addGuardsConstraint iv r with
          | error x => rw [h2] at h; cases h
          | ok r1 =>
            rw [h2] at h
            cases h
            rcases List.mem_append.1 hv with hv | hv
            · exact (ihl h1 hv).imp (List.mem_append_left _) id
            · exact (ihr h2 hv).imp (List.mem_append_right _) id

theorem refs_guardBus {id : ℕ} {b b' : SymBus (ZMod p) ℕ} {cs : List (AlgExpr (ZMod p) ℕ)}
    (h : guardBus (.reference id) b = .ok (b', cs)) {v : ℕ} {f : AlgExpr (ZMod p) ℕ}
    (hf : f ∈ cs ++ b'.mult :: b'.args) (hv : v ∈ f.refs) :
    (∃ g ∈ b.mult :: b.args, v ∈ g.refs) ∨ v = id := by
  unfold guardBus at h
  rw [satisfiesZeroWitness_eq] at h
  simp only [bind, Except.bind, pure, Except.pure] at h
  split_ifs at h <;> cases h
  · rcases List.mem_cons.1 hf with rfl | hf
    · have := refs_canonicalize hv
      simp only [AlgExpr.refs, List.cons_append, List.nil_append, List.mem_cons] at this
      rcases this with h | h
      · exact Or.inr h
      · exact Or.inl ⟨_, List.mem_cons_self, h⟩
    · exact Or.inl ⟨f, List.mem_cons_of_mem _ hf, hv⟩
  · rcases List.mem_cons.1 hf with rfl | hf
    · have := refs_canonicalize (mem_refs_toConstraint.1 hv)
      simp only [AlgExpr.refs, List.cons_append, List.nil_append, List.mem_cons] at this
      rcases this with h | h
      · exact Or.inr h
      · exact Or.inl ⟨_, List.mem_cons_self, h⟩
    · exact Or.inl ⟨f, hf, hv⟩

theorem forall₂_mem_right {α β : Type} {P : α → β → Prop} : ∀ {l : List α} {r : List β},
    List.Forall₂ P l r → ∀ b ∈ r, ∃ a ∈ l, P a b
  | _, _, .nil, _, h => by cases h
  | _, _, .cons h t, b, hb => by
    rcases List.mem_cons.1 hb with rfl | hb
    · exact ⟨_, List.mem_cons_self, h⟩
    · obtain ⟨a, h1, h2⟩ := forall₂_mem_right t b hb
      exact ⟨a, List.mem_cons_of_mem _ h1, h2⟩

/-- A guarded machine uses only the columns of the machine and the validity column. -/
theorem refs_addGuards {m m' : SymMachine (ZMod p) ℕ} {a a' : ColumnAllocator}
    (h : addGuards m a = .ok (m', a')) {v : ℕ} (hv : v ∈ m'.refs) : v ∈ m.refs ∨ v = a.nextPolyId := by
  unfold addGuards at h
  simp only [ColumnAllocator.issueNextPolyId, bind, Except.bind, pure, Except.pure] at h
  split at h
  · cases h
  rename_i cs hcs
  split at h
  · cases h
  rename_i gs hgs
  rcases ite_eq_iff.1 h with ⟨-, h⟩ | ⟨-, h⟩
  · cases h
  cases h
  have hbus : ∀ g ∈ gs, ∀ f ∈ g.2 ++ g.1.mult :: g.1.args, v ∈ f.refs →
      v ∈ m.refs ∨ v = a.nextPolyId := by
    intro g hg f hf hvf
    obtain ⟨b, hb, hb'⟩ := forall₂_mem_right (mapM_ok hgs) g hg
    rcases refs_guardBus (b' := g.1) (cs := g.2) hb' hf hvf with ⟨f', h1, h2⟩ | h
    · exact Or.inl (List.mem_flatMap.2 ⟨f', List.mem_append_right _ (List.mem_flatMap.2 ⟨b, hb, h1⟩), h2⟩)
    · exact Or.inr h
  obtain ⟨f, hf, hvf⟩ := List.mem_flatMap.1 hv
  rcases List.mem_append.1 hf with hf | hf
  · simp only [List.append_assoc] at hf
    rcases List.mem_append.1 hf with hf | hf
    · obtain ⟨k, hk, hk'⟩ := forall₂_mem_right (mapM_ok hcs) f hf
      cases h1 : addGuardsConstraint (AlgExpr.reference a.nextPolyId) k with
      | error x => rw [h1] at hk'; cases hk'
      | ok k1 =>
        rw [h1] at hk'
        cases hk'
        rcases refs_addGuardsConstraint h1 (refs_canonicalize (mem_refs_toConstraint.1 hvf)) with h | h
        · exact Or.inl (List.mem_flatMap.2 ⟨k, List.mem_append_left _ hk, h⟩)
        · exact Or.inr (by simpa [AlgExpr.refs] using h)
    · rcases List.mem_append.1 hf with hf | hf
      · obtain ⟨g, hg, hgf⟩ := List.mem_flatMap.1 hf
        exact hbus g hg f (List.mem_append_left _ hgf) hvf
      · rw [List.mem_singleton.1 hf] at hvf
        have := mem_refs_toConstraint.1 hvf
        simp only [makeBool, AlgExpr.refs, List.append_nil, List.cons_append, List.nil_append,
          List.mem_cons, List.not_mem_nil, or_false, or_self] at this
        exact Or.inr this
  · obtain ⟨b, hb, hbf⟩ := List.mem_flatMap.1 hf
    obtain ⟨g, hg, rfl⟩ := List.mem_map.1 hb
    exact hbus g hg f (List.mem_append_right _ hbf) hvf

/-- A machine made of a system uses only the columns of the system. -/
theorem refs_systemToMachine {V : Type} [LinearOrder V] {s : ConstraintSystem p V}
    {m : SymMachine (ZMod p) V} (h : systemToMachine s = .ok m) {v : V} (hv : v ∈ m.refs) :
    s.Mentions v := by
  obtain ⟨h1, h2, -⟩ := systemToMachine_ok h
  obtain ⟨f, hf, hvf⟩ := List.mem_flatMap.1 hv
  rcases List.mem_append.1 hf with hf | hf
  · rw [h1] at hf
    obtain ⟨e, he, rfl⟩ := List.mem_map.1 hf
    exact Or.inl ⟨e, he, mem_vars_iff_occurs.1
      ((mem_refs_groupedToAlgebraic v e).1 (mem_refs_toConstraint.1 hvf))⟩
  · obtain ⟨b', hb', hf⟩ := List.mem_flatMap.1 hf
    obtain ⟨b, hb, hbb⟩ := forall₂_mem_right h2 b' hb'
    refine Or.inr ⟨b, hb, ?_⟩
    unfold busToSymBus at hbb
    split at hbb
    · cases hbb
    split_ifs at hbb
    cases hbb
    simp only [List.mem_cons, List.mem_map] at hf
    rcases hf with rfl | ⟨e, he, rfl⟩
    · exact ⟨_, by simp [BusInteraction.fields], mem_vars_iff_occurs.1
        ((mem_refs_groupedToAlgebraic v _).1 hvf)⟩
    · exact ⟨e, by simp [BusInteraction.fields, he], mem_vars_iff_occurs.1
        ((mem_refs_groupedToAlgebraic v _).1 hvf)⟩

end

end Verif
