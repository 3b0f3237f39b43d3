import Verif.Proofs.Registers
import Verif.Props.Memory

/-!
# C103: accesses to the same register are combined
-/

namespace Verif

open GExpr

set_option linter.unusedSectionVars false

variable {p : ℕ} [Fact p.Prime] {V : Type} [LinearOrder V]

/-- Of all the accesses to one register, only the first remains (if it is a receive) and the last (if
it is a send). The accesses to other address spaces may be to unknown pointers, and nothing is
assumed about the solver. -/
theorem C103_first_last (h : Handler p) (hp : p ≠ 2) (id : ℕ) (space pointer : ZMod p)
    (s s' : ConstraintSystem p V) (solver solver' : Solver p V)
    (hc : ∀ b ∈ s.bus, KnownAccess id space b)
    (ha : Alternating (accessesTo id space pointer s.bus))
    (hr : optimizeMemory h (some id) s solver = .ok (s', solver')) :
    accessesTo id space pointer s'.bus =
      firstReceive (accessesTo id space pointer s.bus) ++
        lastSend (accessesTo id space pointer s.bus) := by
  refine Registers.optimize ?_ hc ha hr
  intro h1
  have : Fact (2 < p) := ⟨lt_of_le_of_ne (Fact.out : p.Prime).two_le (Ne.symm hp)⟩
  exact (ZMod.neg_one_ne_one (n := p)) h1.symm

/-- So there are at most two accesses to each register, however many instructions use it. -/
theorem C103_at_most_two (h : Handler p) (hp : p ≠ 2) (id : ℕ) (space pointer : ZMod p)
    (s s' : ConstraintSystem p V) (solver solver' : Solver p V)
    (hc : ∀ b ∈ s.bus, KnownAccess id space b)
    (ha : Alternating (accessesTo id space pointer s.bus))
    (hr : optimizeMemory h (some id) s solver = .ok (s', solver')) :
    (accessesTo id space pointer s'.bus).length ≤ 2 := by
  rw [C103_first_last h hp id space pointer s s' solver solver' hc ha hr, List.length_append]
  have hl : ∀ (o : Option (BusInteraction (GExpr p V))) (q : BusInteraction (GExpr p V) → Bool),
      (o.toList.filter q).length ≤ 1 := by
    intro o q
    refine (List.length_filter_le _ _).trans ?_
    cases o <;> simp
  have h1 := hl (accessesTo id space pointer s.bus).head?
    (fun b => b.multiplicity = const (-1))
  have h2 := hl (accessesTo id space pointer s.bus).getLast?
    (fun b => b.multiplicity = const 1)
  unfold firstReceive lastSend
  omega

/-! A block of three instructions: two use register 3 and 5, one writes to memory at `x20`. -/

local instance fact_prime_17_registers : Fact (Nat.Prime 17) := ⟨by norm_num⟩

def registerSample : ConstraintSystem 17 ℕ where
  algebraic := []
  bus := [⟨const 1, const (-1), [const 1, const 3, var 0, var 1]⟩,
    ⟨const 1, const 1, [const 1, const 3, var 2, var 3]⟩,
    ⟨const 1, const (-1), [const 1, const 5, var 4, var 5]⟩,
    ⟨const 1, const 1, [const 1, const 5, var 6, var 7]⟩,
    ⟨const 2, var 8, [var 6, const 8]⟩,
    ⟨const 1, const (-1), [const 2, var 20, var 9, var 10]⟩,
    ⟨const 1, const 1, [const 2, var 20, var 11, var 12]⟩,
    ⟨const 1, const (-1), [const 1, const 3, var 13, var 14]⟩,
    ⟨const 1, const 1, [const 1, const 3, var 15, var 16]⟩,
    ⟨const 1, const (-1), [const 1, const 3, var 17, var 18]⟩,
    ⟨const 1, const 1, [const 1, const 3, var 19, var 21]⟩]
  derived := []

theorem registerSample_clear : ∀ b ∈ registerSample.bus, KnownAccess 1 1 b := by
  simp only [registerSample, List.forall_mem_cons, List.not_mem_nil, false_imp_iff, implies_true,
    and_true]
  refine ⟨?_, ?_, ?_, ?_, ?_, ?_, ?_, ?_, ?_, ?_, ?_⟩
  all_goals first
    | exact ⟨1, rfl, fun _ => ⟨Or.inr rfl, _, _, _, rfl, fun _ => ⟨_, rfl⟩⟩⟩
    | exact ⟨1, rfl, fun _ => ⟨Or.inl rfl, _, _, _, rfl, fun _ => ⟨_, rfl⟩⟩⟩
    | exact ⟨2, rfl, fun h => absurd h (by decide)⟩
    | exact ⟨1, rfl, fun _ => ⟨Or.inr rfl, _, _, _, rfl, fun h => absurd h (by decide)⟩⟩
    | exact ⟨1, rfl, fun _ => ⟨Or.inl rfl, _, _, _, rfl, fun h => absurd h (by decide)⟩⟩

/-- The six accesses to register 3 become two; those to the other registers remain. -/
example : Alternating (accessesTo 1 1 3 registerSample.bus) ∧
    (accessesTo 1 1 3 registerSample.bus).length = 6 ∧
    (optimizeMemory defaultHandler (some 1) registerSample Solver.new).toOption.map
      (fun r => decide (r.1.bus = [⟨const 1, const (-1), [const 1, const 3, var 0, var 1]⟩,
        ⟨const 1, const (-1), [const 1, const 5, var 4, var 5]⟩,
        ⟨const 1, const 1, [const 1, const 5, var 6, var 7]⟩,
        ⟨const 2, var 8, [var 6, const 8]⟩,
        ⟨const 1, const (-1), [const 2, var 20, var 9, var 10]⟩,
        ⟨const 1, const 1, [const 2, var 20, var 11, var 12]⟩,
        ⟨const 1, const 1, [const 1, const 3, var 19, var 21]⟩])) = some true := by
  refine ⟨?_, by decide +kernel, by decide +kernel⟩
  unfold Alternating
  decide +kernel

end Verif
