import Verif.Proofs.Expression
import Verif.Props.GroupedExpression

/-!
# C36: expression conversion preserves meaning
-/

set_option linter.unusedSectionVars false

namespace Verif

open GExpr

variable {p : ℕ} {V : Type} [LinearOrder V]

/-- C36: converting a symbolic expression to a grouped expression keeps its value. -/
theorem C36_to_grouped (σ : V → ZMod p) (e : AlgExpr (ZMod p) V) :
    (algebraicToGrouped e).eval σ = e.value σ := eval_algebraicToGrouped σ e

/-- C36: converting a grouped expression to a symbolic expression keeps its value. -/
theorem C36_to_algebraic (σ : V → ZMod p) (e : GExpr p V) :
    (groupedToAlgebraic e).value σ = e.eval σ := value_groupedToAlgebraic σ e

/-- C36: there and back. -/
theorem C36_round_trip (σ : V → ZMod p) (e : AlgExpr (ZMod p) V) :
    (groupedToAlgebraic (algebraicToGrouped e)).value σ = e.value σ := by
  rw [C36_to_algebraic, C36_to_grouped]

/-- C36: dropping the outer sign of a constraint keeps the solutions. -/
theorem C36_constraint (σ : V → ZMod p) (e : AlgExpr (ZMod p) V) :
    e.toConstraint.value σ = 0 ↔ e.value σ = 0 := value_toConstraint σ e

/-- C36: no conversion introduces columns, and the conversion to symbolic form keeps all. -/
theorem C36_variables :
    (∀ (e : AlgExpr (ZMod p) V), ∀ v ∈ (algebraicToGrouped e).vars, v ∈ e.refs) ∧
    ∀ (e : GExpr p V) (v : V), v ∈ (groupedToAlgebraic e).refs ↔ v ∈ e.vars :=
  ⟨vars_algebraicToGrouped, fun e v => mem_refs_groupedToAlgebraic v e⟩

/-- C36: the conversions never raise the degree, and the conversion to symbolic form keeps it. -/
theorem C36_degree :
    (∀ e : AlgExpr (ZMod p) V, (algebraicToGrouped e).degree ≤ e.degree) ∧
    ∀ e : GExpr p V, (groupedToAlgebraic e).degree = e.degree :=
  ⟨degree_algebraicToGrouped, degree_groupedToAlgebraic⟩

/-- C36: the constraint system of a machine accepts exactly the rows of the machine, and computes the
derived columns in the same way. -/
theorem C36_machine_to_system [Fact p.Prime] (bus : Bus p) (m : SymMachine (ZMod p) V)
    (σ : V → ZMod p) :
    ((machineToSystem m).Satisfied bus σ ↔ m.Holds σ ∧ m.Accepted bus σ) ∧
    (machineToSystem m).derived.map (fun d => (d.column, d.method.value σ)) =
      m.derived.map fun x => (x.1, x.2.value σ) := by
  refine ⟨machineToSystem_satisfied bus m σ, ?_⟩
  simp only [machineToSystem, List.map_map]
  refine List.map_congr_left fun x _ => ?_
  obtain ⟨c, m⟩ := x
  cases m <;> simp [ComputationMethod.value, SymMethod.value,
    eval_algebraicToGrouped]

/-- C36: the machine of a constraint system has the same solutions, sends the same messages and
computes the derived columns in the same way. -/
theorem C36_system_to_machine [Fact p.Prime] {s : ConstraintSystem p V} {m : SymMachine (ZMod p) V}
    (h : systemToMachine s = .ok m) (σ : V → ZMod p) :
    (m.Holds σ ↔ ∀ e ∈ s.algebraic, e.eval σ = 0) ∧
    m.messages σ = (s.bus.map fun b => b.evalAt σ).map
      (fun b => (b.busId.val, b.multiplicity, b.payload)) ∧
    m.derived.map (fun x => (x.1, x.2.value σ)) =
      s.derived.map fun d => (d.column, d.method.value σ) := by
  have : NeZero p := ⟨(Fact.out : p.Prime).ne_zero⟩
  obtain ⟨h1, h2, h3⟩ := systemToMachine_ok h
  refine ⟨?_, ?_, ?_⟩
  · simp only [SymMachine.Holds, h1, List.mem_map, forall_exists_index, and_imp,
      forall_apply_eq_imp_iff₂, value_toConstraint, value_groupedToAlgebraic]
  · unfold SymMachine.messages
    generalize s.bus = bs at h2
    generalize m.bus = bs' at h2
    induction h2 with
    | nil => rfl
    | cons ha _ ih => simp only [List.map_cons, ih, (busToSymBus_message ha σ).1]
  · rw [h3, List.map_map]
    refine List.map_congr_left fun d _ => ?_
    obtain ⟨c, m⟩ := d
    cases m <;> simp [ComputationMethod.value, SymMethod.value,
      value_groupedToAlgebraic]

/-- C36: a machine whose bus ids are below the field size and 64 bits can be converted there and
back, and comes back with the same rows, messages and derived values. -/
theorem C36_machine_round_trip [Fact p.Prime] {m : SymMachine (ZMod p) V}
    (hid : ∀ b ∈ m.bus, b.id < p ∧ b.id < 2 ^ 64) :
    ∃ m', systemToMachine (machineToSystem m) = .ok m' ∧ ∀ σ : V → ZMod p,
      (m'.Holds σ ↔ m.Holds σ) ∧ m'.messages σ = m.messages σ ∧
      m'.derived.map (fun x => (x.1, x.2.value σ)) = m.derived.map fun x => (x.1, x.2.value σ) := by
  have : NeZero p := ⟨(Fact.out : p.Prime).ne_zero⟩
  have hb : (machineToSystem m).bus.mapM busToSymBus = .ok ((machineToSystem m).bus.map fun b =>
      ⟨(b.busId.tryToNumber.getD 0).val, groupedToAlgebraic b.multiplicity,
        b.payload.map groupedToAlgebraic⟩) := by
    refine mapM_of_forall _ fun b hb => ?_
    obtain ⟨b', hb', rfl⟩ := List.mem_map.1 hb
    have hv : ((b'.id : ZMod p)).val = b'.id := ZMod.val_cast_of_lt (hid b' hb').1
    have ht : (symBusToBus b').busId.tryToNumber = some (b'.id : ZMod p) := by
      simp [symBusToBus, GExpr.const, GExpr.tryToNumber, GExpr.tryToKnown]
    unfold busToSymBus
    rw [ht]
    simp only [hv, (hid b' hb').2, if_true, Option.getD_some]
  have hok : ∃ m', systemToMachine (machineToSystem m) = .ok m' := by
    unfold systemToMachine
    rw [hb]
    exact ⟨_, rfl⟩
  obtain ⟨m', hm'⟩ := hok
  refine ⟨m', hm', fun σ => ?_⟩
  obtain ⟨h1, h2, h3⟩ := C36_system_to_machine hm' σ
  refine ⟨?_, ?_, ?_⟩
  · rw [h1]
    simp only [machineToSystem, List.mem_map, forall_exists_index, and_imp,
      forall_apply_eq_imp_iff₂, eval_algebraicToGrouped, SymMachine.Holds]
  · rw [h2]
    simp only [machineToSystem, SymMachine.messages, List.map_map]
    refine List.map_congr_left fun b hb => ?_
    simp only [Function.comp_def, symBusToBus_evalAt, SymBus.message,
      ZMod.val_cast_of_lt (hid b hb).1]
  · rw [h3, (C36_machine_to_system (fun _ => True) m σ).2]

/-! Samples. -/

/-- `3 * (x0 - x1) * -(x2 + 16) - 5`. -/
def exprSample : AlgExpr (ZMod 17) ℕ :=
  .binary (.binary (.binary (.number 3) .mul (.binary (.reference 0) .sub (.reference 1))) .mul
    (.minus (.binary (.reference 2) .add (.number 16)))) .sub (.number 5)

/-- The sample comes back as `(3 * x0 - 3 * x1) * (1 - x2) - 5`. -/
example : groupedToAlgebraic (algebraicToGrouped exprSample) =
    .binary (.binary (.binary (.binary (.number 3) .mul (.reference 0)) .sub
      (.binary (.number 3) .mul (.reference 1))) .mul
      (.binary (.number 1) .sub (.reference 2))) .sub (.number 5) := by decide +kernel

def machineSample : SymMachine (ZMod 17) ℕ where
  constraints := [exprSample, .minus (.binary (.reference 0) .mul (.reference 3))]
  bus := [⟨3, .reference 0, [.reference 1, exprSample]⟩, ⟨16, .number 1, []⟩]
  derived := [(5, .quotientOrZero (.reference 1) exprSample), (6, .constant 4)]

example : ∀ b ∈ machineSample.bus, b.id < 17 ∧ b.id < 2 ^ 64 := by decide

/-- The round trip of the sample, with the constraint without its sign. -/
example : (systemToMachine (machineToSystem machineSample)).toOption.map (fun m =>
    decide (m.constraints.getD 1 (.number 0) = .binary (.reference 0) .mul (.reference 3) ∧
      m.bus.map SymBus.id = [3, 16] ∧ m.derived.map Prod.fst = [5, 6])) = some true := by
  decide +kernel

/-- Without the bound on ids the round trip changes the bus. -/
example : (systemToMachine (machineToSystem (⟨[], [⟨18, .number 1, []⟩], []⟩ :
      SymMachine (ZMod 17) ℕ))).toOption.map (fun m => m.bus.map SymBus.id) =
    some [1] := by decide +kernel

end Verif
