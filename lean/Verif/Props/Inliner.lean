import Verif.Proofs.Inliner
import Verif.Spec.Inliner
import Verif.Props.Indexed

/-! # Property C22: inlining of variables -/

namespace Verif

open GExpr

set_option linter.unusedSectionVars false

variable {p : ℕ} [Fact p.Prime] {V : Type} [LinearOrder V]

theorem mentions_iff {s : ConstraintSystem p V} {v : V} : s.Mentions v ↔ v ∈ systemVars s := by
  rw [mem_systemVars]
  simp only [ConstraintSystem.Mentions, mem_vars_iff_occurs]

/-- C22: whatever the callback decides, the solutions of the original system are exactly the
solutions of the new system that satisfy the returned definitions of the inlined
variables. The system may be the result of any history of operations. -/
theorem C22_solutions (s : ConstraintSystem p V) (ops : List (IndexedOp p V))
    (hw : (indexedHistory s ops).sys.WF) (should : ShouldInline p V) (passes : ℕ)
    (ix : Indexed p V) (subs : List (V × GExpr p V))
    (h : replaceConstrainedWitnessColumns passes (indexedHistory s ops) should =
      .ok (some (ix, subs))) (bus : Bus p) (σ : V → ZMod p) :
    (indexedHistory s ops).sys.Satisfied bus σ ↔
      ix.sys.Satisfied bus σ ∧ ∀ y ∈ subs, σ y.1 = y.2.eval σ :=
  ((replace_spec (Indexed.inv_history s ops) hw should passes).1 ix subs h).2.2.1 bus σ

/-- C22: the interactions of the new system send the same messages, in the same order. -/
theorem C22_messages (s : ConstraintSystem p V) (ops : List (IndexedOp p V))
    (hw : (indexedHistory s ops).sys.WF) (should : ShouldInline p V) (passes : ℕ)
    (ix : Indexed p V) (subs : List (V × GExpr p V))
    (h : replaceConstrainedWitnessColumns passes (indexedHistory s ops) should =
      .ok (some (ix, subs))) (σ : V → ZMod p) (hσ : ∀ y ∈ subs, σ y.1 = y.2.eval σ) :
    ix.sys.bus.map (BusInteraction.evalAt σ) =
      (indexedHistory s ops).sys.bus.map (BusInteraction.evalAt σ) :=
  replace_sent (Indexed.inv_history s ops) hw h hσ

/-- C22: under the substitutions, the derived variables of the new system have the values of their
computation methods if those of the original system do. -/
theorem C22_derived (s : ConstraintSystem p V) (ops : List (IndexedOp p V))
    (hw : (indexedHistory s ops).sys.WF) (hd : (indexedHistory s ops).sys.DerivedWF)
    (should : ShouldInline p V) (passes : ℕ) (ix : Indexed p V) (subs : List (V × GExpr p V))
    (h : replaceConstrainedWitnessColumns passes (indexedHistory s ops) should =
      .ok (some (ix, subs))) (σ : V → ZMod p) (hσ : ∀ y ∈ subs, σ y.1 = y.2.eval σ)
    (hc : (indexedHistory s ops).sys.Computed σ) : ix.sys.DerivedWF ∧ ix.sys.Computed σ := by
  have := replace_derived (Indexed.inv_history s ops) hw h hσ fun d h => ⟨hd d h, hc d h⟩
  exact ⟨fun d hd => (this d hd).1, fun d hd => (this d hd).2⟩

/-- C22: a valuation solves the new system exactly if it can be turned into a solution of the
original system by changing only inlined variables. -/
theorem C22_projection (s : ConstraintSystem p V) (ops : List (IndexedOp p V))
    (hw : (indexedHistory s ops).sys.WF) (should : ShouldInline p V) (passes : ℕ)
    (ix : Indexed p V) (subs : List (V × GExpr p V))
    (h : replaceConstrainedWitnessColumns passes (indexedHistory s ops) should =
      .ok (some (ix, subs))) (bus : Bus p) (τ : V → ZMod p) :
    ix.sys.Satisfied bus τ ↔
      ∃ σ : V → ZMod p, (∀ v, (∀ y ∈ subs, y.1 ≠ v) → σ v = τ v) ∧
        (indexedHistory s ops).sys.Satisfied bus σ := by
  obtain ⟨-, -, h1, h2, h3, h4, -⟩ :=
    (replace_spec (Indexed.inv_history s ops) hw should passes).1 ix subs h
  have hcongr : ∀ σ : V → ZMod p, (∀ v, (∀ y ∈ subs, y.1 ≠ v) → σ v = τ v) →
      (ix.sys.Satisfied bus σ ↔ ix.sys.Satisfied bus τ) := fun σ hσ =>
    satisfied_congr fun v hv => hσ v fun y hy hyv => h2 y hy (hyv ▸ hv)
  constructor
  · intro ht
    obtain ⟨σ, k1, k2⟩ := extend_valuation subs h3 h4 τ
    have hσ : ∀ v, (∀ y ∈ subs, y.1 ≠ v) → σ v = τ v := fun v hv => k1 v fun hm => by
      obtain ⟨y, hy, hyv⟩ := List.mem_map.1 hm
      exact hv y hy hyv
    exact ⟨σ, hσ, (h1 bus σ).2 ⟨(hcongr σ hσ).2 ht, k2⟩⟩
  · rintro ⟨σ, hσ, hs⟩
    exact (hcongr σ hσ).1 ((h1 bus σ).1 hs).1

/-- C22: inlined variables do not occur in the new system, no variable is inlined twice, the
definition of a variable does not mention the variable itself, and one constraint is removed
per inlined variable. No variable is invented. -/
theorem C22_eliminated (s : ConstraintSystem p V) (ops : List (IndexedOp p V))
    (hw : (indexedHistory s ops).sys.WF) (should : ShouldInline p V) (passes : ℕ)
    (ix : Indexed p V) (subs : List (V × GExpr p V))
    (h : replaceConstrainedWitnessColumns passes (indexedHistory s ops) should =
      .ok (some (ix, subs))) :
    (∀ y ∈ subs, ¬ ix.sys.Mentions y.1 ∧ ¬ y.2.Occurs y.1 ∧
      (indexedHistory s ops).sys.Mentions y.1) ∧
    (subs.map (·.1)).Nodup ∧
    ix.sys.algebraic.length + subs.length = (indexedHistory s ops).sys.algebraic.length ∧
    ∀ v, ix.sys.Mentions v → (indexedHistory s ops).sys.Mentions v := by
  obtain ⟨-, -, -, h2, h3, h4, h5, h6, h7, -⟩ :=
    (replace_spec (Indexed.inv_history s ops) hw should passes).1 ix subs h
  refine ⟨fun y hy => ⟨?_, ?_, ?_⟩, ?_, h7, fun v hv => mentions_iff.2 (h5 v (mentions_iff.1 hv))⟩
  · rw [mentions_iff]; exact h2 y hy
  · rw [← mem_vars_iff_occurs]; exact h3 y hy
  · rw [mentions_iff]; exact (h6 y hy).1
  · rw [List.Nodup, List.pairwise_map]
    exact h4.imp fun h => h.1.symm

/-- C22: with the degree bound callback (alone or together with any further condition), every
constraint of the new system is within the bound or is one of the original constraints. -/
theorem C22_degree (s : ConstraintSystem p V) (ops : List (IndexedOp p V))
    (hw : (indexedHistory s ops).sys.WF) (bound : DegreeBound) (should : ShouldInline p V)
    (hb : ∀ x e t, should x e t = .ok true → belowDegreeBound bound x e t = .ok true)
    (passes : ℕ) (ix : Indexed p V) (subs : List (V × GExpr p V))
    (h : replaceConstrainedWitnessColumns passes (indexedHistory s ops) should =
      .ok (some (ix, subs))) :
    WithinBoundOrOld bound (indexedHistory s ops).sys ix.sys := by
  obtain ⟨h1, h2⟩ := ((replace_spec (Indexed.inv_history s ops) hw should passes).1 ix subs
    h).2.2.2.2.2.2.2.2.2 bound hb
  exact ⟨h1, h2⟩

/-- C22: inlining terminates, after at most one pass per variable of the system and one more, and no
assertion fails (with a callback that does not panic). -/
theorem C22_terminates (s : ConstraintSystem p V) (ops : List (IndexedOp p V))
    (hw : (indexedHistory s ops).sys.WF) (should : ShouldInline p V)
    (hs : ∀ x e t, ∃ b, should x e t = .ok b) (vs : List V)
    (hv : ∀ v, (indexedHistory s ops).sys.Mentions v → v ∈ vs) :
    ∃ r, replaceConstrainedWitnessColumns (vs.length + 1) (indexedHistory s ops) should =
      .ok (some r) := by
  obtain ⟨o, ho, ho'⟩ := (replace_spec (Indexed.inv_history s ops) hw should
    (vs.length + 1)).2 fun x e t _ => hs x e t
  have hle : (systemVars (indexedHistory s ops).sys).dedup.length ≤ vs.length :=
    ((List.nodup_dedup _).subperm fun v hv' =>
      hv v (mentions_iff.2 (List.mem_dedup.1 hv'))).length_le
  cases o with
  | none => exact absurd rfl (ho' (by omega))
  | some r => exact ⟨r, ho⟩

/-- C22: the same with the degree bound callback. -/
theorem C22_terminates_degree_bound (s : ConstraintSystem p V) (ops : List (IndexedOp p V))
    (hw : (indexedHistory s ops).sys.WF) (bound : DegreeBound) (vs : List V)
    (hv : ∀ v, (indexedHistory s ops).sys.Mentions v → v ∈ vs) :
    ∃ r, replaceConstrainedWitnessColumns (vs.length + 1) (indexedHistory s ops)
      (belowDegreeBound bound) = .ok (some r) := by
  obtain ⟨o, ho, ho'⟩ := (replace_spec (Indexed.inv_history s ops) hw (belowDegreeBound bound)
    (vs.length + 1)).2 fun x e t ht => by
      rw [belowDegreeBound, Indexed.constraintsReferencing_ok ht]
      exact ⟨_, rfl⟩
  have hle : (systemVars (indexedHistory s ops).sys).dedup.length ≤ vs.length :=
    ((List.nodup_dedup _).subperm fun v hv' =>
      hv v (mentions_iff.2 (List.mem_dedup.1 hv'))).length_le
  cases o with
  | none => exact absurd rfl (ho' (by omega))
  | some r => exact ⟨r, ho⟩

/-- C22: the callback refuses a substitution only if a constraint that mentions the variable would
reach, by the estimate, a degree above the bound; the estimate is at least the degree after
the substitution. -/
theorem C22_degree_estimate (x : V) (r e : GExpr p V) :
    (GExpr.subst x r e).degree ≤ virtualDegree x r.degree e := degree_subst_le_virtual x r e

/-! A system in which variables 2 and 1 are inlined, but variable 3, which is on a bus, is not. -/

def sampleInline : ConstraintSystem 17 ℕ :=
  ⟨[var 1 - var 0 - const 3, var 2 - var 1 * var 0, var 3 - var 2 * var 2],
    [⟨const 5, const 1, [var 3, var 0]⟩], [⟨4, .quotientOrZero (var 3) (var 2)⟩]⟩

example : (replaceConstrainedWitnessColumns 5 (indexedHistory sampleInline [])
      (belowDegreeBound ⟨4, 1⟩)).map
    (fun o => o.map fun r => (r.1.sys.algebraic.length, r.2.map (·.1),
      r.1.sys.derived.map fun d => (d.column, d.method.vars.dedup))) =
    .ok (some (1, [1, 2], [(4, [3, 0])])) := by
  decide +kernel

example : sampleInline.DerivedWF ∧ sampleInline.Computed (fun v =>
    if v = 0 then 1 else if v = 3 then 16 else 4) := by
  refine ⟨fun d hd => ?_, by unfold ConstraintSystem.Computed DerivedVariable.Computed; decide +kernel⟩
  cases List.mem_singleton.1 hd
  exact ⟨wf_var _, wf_var _⟩

theorem sampleInline_wf : (indexedHistory sampleInline []).sys.WF := by
  constructor
  · intro e he
    have : e = var 1 - var 0 - const 3 ∨ e = var 2 - var 1 * var 0 ∨ e = var 3 - var 2 * var 2 := by
      simpa [indexedHistory, Indexed.ofSystem, sampleInline] using he
    rcases this with rfl | rfl | rfl
    · exact wf_sub (wf_sub (wf_var 1) (wf_var 0)) (wf_const 3)
    · exact wf_sub (wf_var 2) (wf_mul (wf_var 1) (wf_var 0))
    · exact wf_sub (wf_var 3) (wf_mul (wf_var 2) (wf_var 2))
  · intro b hb
    have : b = ⟨const 5, const 1, [var 3, var 0]⟩ := by
      simpa [indexedHistory, Indexed.ofSystem, sampleInline] using hb
    subst this
    intro e he
    simp only [BusInteraction.fields, List.mem_cons, List.not_mem_nil, or_false] at he
    rcases he with rfl | rfl | rfl | rfl
    · exact wf_const _
    · exact wf_const _
    · exact wf_var 3
    · exact wf_var 0

example : ∃ r, replaceConstrainedWitnessColumns 5 (indexedHistory sampleInline [])
    (belowDegreeBound ⟨4, 1⟩) = .ok (some r) := by
  refine C22_terminates_degree_bound sampleInline [] sampleInline_wf _ [0, 1, 2, 3] ?_
  intro v hv
  rw [mentions_iff] at hv
  have : systemVars (indexedHistory sampleInline []).sys = [0, 1, 1, 0, 2, 2, 2, 3, 3, 0] := by
    decide +kernel
  rw [this] at hv
  simp at hv
  simp
  omega

end Verif
