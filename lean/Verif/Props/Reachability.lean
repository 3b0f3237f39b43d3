import Verif.Proofs.Reachability
import Verif.Props.Inliner

/-! # Property C24: reachability and splitting of systems -/

namespace Verif

open GExpr

set_option linter.unusedSectionVars false

variable {p : ℕ} [Fact p.Prime] {V : Type} [LinearOrder V]

/-- C24: whatever the history of the system and the iteration order of the sets, the reported
variables are exactly the reachable ones, each reported once. -/
theorem C24_reachable_exact (s : ConstraintSystem p V) (ops : List (IndexedOp p V))
    (ord : SetOrder V) (rounds : ℕ) (initial blocking r : List V)
    (h : reachableExceptBlocked ord rounds initial blocking (indexedHistory s ops) =
      .ok (some r)) :
    r.Nodup ∧ ∀ v, v ∈ r ↔
      Reachable (indexedHistory s ops).sys (· ∈ initial) (· ∈ blocking) v := by
  obtain ⟨o, ho, h1, -⟩ := reachableExceptBlocked_spec ord (Indexed.inv_history s ops) initial
    blocking rounds
  rw [h] at ho
  cases ho
  exact h1 r rfl

/-- C24: the search terminates without panic, after at most one round per variable and one more. -/
theorem C24_reachable_terminates (s : ConstraintSystem p V) (ops : List (IndexedOp p V))
    (ord : SetOrder V) (initial blocking vs : List V)
    (hv : ∀ v, v ∈ initial ∨ (indexedHistory s ops).sys.Mentions v → v ∈ vs) :
    ∃ r, reachableExceptBlocked ord (vs.length + 1) initial blocking (indexedHistory s ops) =
      .ok (some r) := by
  obtain ⟨o, ho, -, h2⟩ := reachableExceptBlocked_spec ord (Indexed.inv_history s ops) initial
    blocking (vs.length + 1)
  have := h2 vs (fun v hr => by
    rcases List.mem_append.1 (reachable_bound (fun _ h => h) hr) with h | h
    · exact hv v (Or.inl h)
    · exact hv v (Or.inr (mentions_iff.2 h))) (by omega)
  cases o with
  | none => exact absurd rfl this
  | some r => exact ⟨r, ho⟩

theorem vars_isEmpty {e : GExpr p V} : (!e.vars.isEmpty) = true ↔ ∃ v, e.Occurs v := by
  rw [Bool.not_eq_eq_eq_not, Bool.not_true, List.isEmpty_eq_false_iff]
  constructor
  · intro h
    obtain ⟨v, hv⟩ := List.exists_mem_of_ne_nil _ h
    exact ⟨v, mem_vars_iff_occurs.1 hv⟩
  · rintro ⟨v, hv⟩
    exact List.ne_nil_of_mem (mem_vars_iff_occurs.2 hv)

theorem busVars_isEmpty {b : BusInteraction (GExpr p V)} :
    (!(busVars b).isEmpty) = true ↔ ∃ v, ∃ e ∈ b.fields, e.Occurs v := by
  rw [Bool.not_eq_eq_eq_not, Bool.not_true, List.isEmpty_eq_false_iff]
  constructor
  · intro h
    obtain ⟨v, hv⟩ := List.exists_mem_of_ne_nil _ h
    exact ⟨v, mem_busVars.1 hv⟩
  · rintro ⟨v, hv⟩
    exact List.ne_nil_of_mem (mem_busVars.2 hv)

open Classical in
/-- C24: all parts together contain exactly the constraints and bus interactions of the original that
mention a variable, each as often as the original. -/
theorem C24_split_contents (s : ConstraintSystem p V) (ops : List (IndexedOp p V))
    (ord : SetOrder V) (rounds : ℕ) (parts : List (ConstraintSystem p V))
    (h : splitSystem ord rounds (indexedHistory s ops) = .ok (some parts)) :
    (parts.flatMap (·.algebraic)).Perm
      ((indexedHistory s ops).sys.algebraic.filter fun e => ∃ v, e.Occurs v) ∧
    (parts.flatMap (·.bus)).Perm
      ((indexedHistory s ops).sys.bus.filter fun b => ∃ v, ∃ e ∈ b.fields, e.Occurs v) := by
  obtain ⟨o, ho, h1, -⟩ := splitSystem_spec ord rounds (indexedHistory s ops)
  rw [h] at ho
  cases ho
  obtain ⟨items, rfl, hp⟩ := h1 parts rfl
  obtain ⟨k1, k2⟩ := parts_perm hp
  rw [List.flatMap_map, List.flatMap_map]
  constructor
  · refine k1.trans (List.Perm.of_eq ?_)
    simp only [dropRedundant, List.filter_filter]
    apply List.filter_congr
    intro e _
    rw [Bool.eq_iff_iff, Bool.and_eq_true, vars_isEmpty, decide_eq_true_iff]
    constructor
    · exact fun h => h.1
    · intro h
      refine ⟨h, ?_⟩
      rw [Bool.not_eq_eq_eq_not, Bool.not_true]
      by_contra hz
      rw [Bool.not_eq_false] at hz
      unfold isZero at hz
      cases hk : e.tryToKnown with
      | none => rw [hk] at hz; cases hz
      | some k =>
        obtain ⟨v, hv⟩ := h
        have := mem_vars_iff_occurs.2 hv
        rw [vars_known hk] at this
        cases this
  · refine k2.trans (List.Perm.of_eq ?_)
    simp only [dropRedundant]
    apply List.filter_congr
    intro b _
    rw [Bool.eq_iff_iff, busVars_isEmpty, decide_eq_true_iff]

/-- C24: a valuation satisfies the original system exactly if it satisfies all parts and those
constraints and bus interactions without variables (which belong to no part) hold. -/
theorem C24_split_satisfied (s : ConstraintSystem p V) (ops : List (IndexedOp p V))
    (ord : SetOrder V) (rounds : ℕ) (parts : List (ConstraintSystem p V))
    (h : splitSystem ord rounds (indexedHistory s ops) = .ok (some parts)) (bus : Bus p)
    (σ : V → ZMod p) :
    (indexedHistory s ops).sys.Satisfied bus σ ↔
      (∀ part ∈ parts, part.Satisfied bus σ) ∧
      (∀ e ∈ (indexedHistory s ops).sys.algebraic, (∀ v, ¬ e.Occurs v) → e.eval σ = 0) ∧
      ∀ b ∈ (indexedHistory s ops).sys.bus, (∀ v, ∀ e ∈ b.fields, ¬ e.Occurs v) →
        bus (b.evalAt σ) := by
  classical
  obtain ⟨h1, h2⟩ := C24_split_contents s ops ord rounds parts h
  have m1 : ∀ e, (∃ part ∈ parts, e ∈ part.algebraic) ↔
      e ∈ (indexedHistory s ops).sys.algebraic ∧ ∃ v, e.Occurs v := fun e => by
    rw [← List.mem_flatMap, h1.mem_iff, List.mem_filter, decide_eq_true_iff]
  have m2 : ∀ b, (∃ part ∈ parts, b ∈ part.bus) ↔
      b ∈ (indexedHistory s ops).sys.bus ∧ ∃ v, ∃ e ∈ b.fields, e.Occurs v := fun b => by
    rw [← List.mem_flatMap, h2.mem_iff, List.mem_filter, decide_eq_true_iff]
  constructor
  · rintro ⟨k1, k2⟩
    exact ⟨fun part hp => ⟨fun e he => k1 e ((m1 e).1 ⟨part, hp, he⟩).1,
      fun b hb => k2 b ((m2 b).1 ⟨part, hp, hb⟩).1⟩, fun e he _ => k1 e he, fun b hb _ => k2 b hb⟩
  · rintro ⟨k1, k2, k3⟩
    refine ⟨fun e he => ?_, fun b hb => ?_⟩
    · by_cases hv : ∃ v, e.Occurs v
      · obtain ⟨part, hp, hm⟩ := (m1 e).2 ⟨he, hv⟩
        exact (k1 part hp).1 e hm
      · exact k2 e he fun v hv' => hv ⟨v, hv'⟩
    · by_cases hv : ∃ v, ∃ e ∈ b.fields, e.Occurs v
      · obtain ⟨part, hp, hm⟩ := (m2 b).2 ⟨hb, hv⟩
        exact (k1 part hp).2 b hm
      · exact k3 b hb fun v e he hv' => hv ⟨v, e, he, hv'⟩

theorem mem_systemOfRefs {s : ConstraintSystem p V} {items : List Item} {v : V}
    (h : (systemOfRefs (items.filterMap (refAt s))).Mentions v) :
    ∃ x ∈ items, OccursIn s v x ∧ x.isDerived = false := by
  rcases h with ⟨e, he, hv⟩ | ⟨b, hb, hv⟩
  · rw [systemOfRefs_algebraic] at he
    obtain ⟨x, hx, hxe⟩ := List.mem_filterMap.1 he
    cases x with
    | alg i => exact ⟨_, hx, ⟨e, hxe, hv⟩, rfl⟩
    | bus i => cases hxe
    | derived i => cases hxe
  · rw [systemOfRefs_bus] at hb
    obtain ⟨x, hx, hxe⟩ := List.mem_filterMap.1 hb
    cases x with
    | bus i => exact ⟨_, hx, ⟨b, hxe, hv⟩, rfl⟩
    | alg i => cases hxe
    | derived i => cases hxe

/-- C24: different parts have no variable in common, and any two variables of a part are
connected through constraints of the system. The parts have no derived variables. -/
theorem C24_split_independent (s : ConstraintSystem p V) (ops : List (IndexedOp p V))
    (ord : SetOrder V) (rounds : ℕ) (parts : List (ConstraintSystem p V))
    (h : splitSystem ord rounds (indexedHistory s ops) = .ok (some parts)) :
    (parts.Pairwise fun a b => ∀ v, ¬ (a.Mentions v ∧ b.Mentions v)) ∧
    (∀ a ∈ parts, ∀ v w, a.Mentions v → a.Mentions w →
      Reachable (indexedHistory s ops).sys (· = v) (fun _ => False) w) ∧
    ∀ a ∈ parts, a.derived = [] := by
  obtain ⟨o, ho, h1, -⟩ := splitSystem_spec ord rounds (indexedHistory s ops)
  rw [h] at ho
  cases ho
  obtain ⟨items, rfl, hp⟩ := h1 parts rfl
  have hmono : ∀ v w, Connected (dropRedundant (indexedHistory s ops).sys) v w →
      Connected (indexedHistory s ops).sys v w := by
    intro v w hvw
    induction hvw with
    | start x hx => exact .start x hx
    | step a b c _ hb hc h1 h2 ih =>
      refine .step a b c ih hb ?_ h1 h2
      cases c with
      | alg e => exact (List.mem_filter.1 hc).1
      | bus b => exact hc
  -- variables of a part are in its component
  have hcomp : ∀ l ∈ items, ∃ u, (∀ x, x ∈ l ↔
      ∃ w, Connected (dropRedundant (indexedHistory s ops).sys) u w ∧
        OccursIn (dropRedundant (indexedHistory s ops).sys) w x) ∧
      ∀ v, (systemOfRefs (l.filterMap (refAt (dropRedundant
        (indexedHistory s ops).sys)))).Mentions v →
        Connected (dropRedundant (indexedHistory s ops).sys) u v := by
    intro l hl
    obtain ⟨u, -, hu⟩ := hp.comp l hl
    refine ⟨u, hu, fun v hv => ?_⟩
    obtain ⟨x, hx, ho, hd⟩ := mem_systemOfRefs hv
    obtain ⟨w, hw, hwx⟩ := (hu x).1 hx
    exact hw.trans (connected_of_item hd hwx ho)
  refine ⟨?_, ?_, ?_⟩
  · rw [List.pairwise_map]
    refine List.Pairwise.imp_of_mem ?_ hp.apart
    rintro a b ha hb hab v ⟨hva, hvb⟩
    obtain ⟨x, hx, ho, hd⟩ := mem_systemOfRefs hva
    obtain ⟨u, hu, hu'⟩ := hcomp b hb
    have := hab x hx ((hu x).2 ⟨v, hu' v hvb, ho⟩)
    rw [hd] at this
    cases this
  · intro a ha v w hv hw
    obtain ⟨l, hl, rfl⟩ := List.mem_map.1 ha
    obtain ⟨u, -, hu⟩ := hcomp l hl
    exact hmono v w ((hu v hv).symm.trans (hu w hw))
  · intro a ha
    obtain ⟨l, hl, rfl⟩ := List.mem_map.1 ha
    rfl

/-- C24: splitting terminates without panic. -/
theorem C24_split_terminates (s : ConstraintSystem p V) (ops : List (IndexedOp p V)) :
    ∃ n, ∀ rounds ≥ n, ∀ ord : SetOrder V, ∃ parts,
      splitSystem ord rounds (indexedHistory s ops) = .ok (some parts) := by
  refine ⟨(systemVars (dropRedundant (indexedHistory s ops).sys)).length + 2 +
    (indexedVariables (dropRedundant (indexedHistory s ops).sys)).length, fun rounds hr ord => ?_⟩
  obtain ⟨o, ho, -, h2⟩ := splitSystem_spec ord rounds (indexedHistory s ops)
  have := h2 (by omega) (by omega)
  cases o with
  | none => exact absurd rfl this
  | some ps => exact ⟨ps, ho⟩

/-! A system of two components, one of them linked by a bus interaction. -/

def sampleSplit : ConstraintSystem 17 ℕ :=
  ⟨[var 0 - var 1, var 4 * var 4, const 0], [⟨const 5, const 1, [var 1, var 2]⟩,
    ⟨const 5, const 1, [const 3]⟩], []⟩

/-- The iteration order is the reverse of the insertion order. -/
def reverseOrder : SetOrder ℕ := ⟨List.reverse, fun l => l.reverse_perm⟩

example : (splitSystem reverseOrder 9 (indexedHistory sampleSplit [])).map
    (fun o => o.map fun ps => ps.map fun a => (a.algebraic, a.bus.length)) =
    .ok (some [([var 0 - var 1], 1), ([var 4 * var 4], 0)]) := by decide +kernel

example : (reachableExceptBlocked reverseOrder 9 [0] [1] (indexedHistory sampleSplit [])) =
    .ok (some [0, 1]) := by decide +kernel

example : (reachableExceptBlocked reverseOrder 9 [0] [] (indexedHistory sampleSplit [])) =
    .ok (some [0, 1, 2]) := by decide +kernel

end Verif
