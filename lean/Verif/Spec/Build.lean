import Verif.Model.Build
import Verif.Spec.Optimizer
import Verif.Spec.ExecBus
import Verif.Spec.Empirical

/-!
# Specification: the rows of a block and the rows of its precompile
-/

namespace Verif

section
variable {U : Type} [CommRing U]

/-- The messages sent by the rows of the instructions, in order. `rows k c` is the value of column `c`
in the row of instruction `k`. -/
def rowMessages (is : List (InstrAir U)) (rows : ℕ → ℕ → U) : List (ℕ × U × List U) :=
  is.zipIdx.flatMap fun x => x.1.machine.messages (rows x.2)

/-- The rows are an execution of the instructions, one after the other: each row satisfies the
constraints of its instruction, is executed once, is the row of the program for the instruction, and
receives the state that the row before it has sent. -/
structure BlockRows (execBus pcBus : ℕ) (is : List (InstrAir U)) (rows : ℕ → ℕ → U) : Prop where
  constraints : ∀ (k : ℕ) (i : InstrAir U), is[k]? = some i → i.machine.Holds (rows k)
  executed : ∀ (k : ℕ) (i : InstrAir U), is[k]? = some i → ∀ r s, i.machine.onBus execBus = [r, s] →
    r.mult.value (rows k) = -1
  program : ∀ (k : ℕ) (i : InstrAir U), is[k]? = some i → ∀ b ∈ i.machine.onBus pcBus,
    b.args.map (AlgExpr.value (rows k)) = i.pcLookupRow
  chained : ∀ (k : ℕ) (i j : InstrAir U), is[k]? = some i → is[k + 1]? = some j → ∀ r s r' s',
    i.machine.onBus execBus = [r, s] → j.machine.onBus execBus = [r', s'] →
    r'.args.map (AlgExpr.value (rows (k + 1))) = s.args.map (AlgExpr.value (rows k))

/-- The rows satisfy the empirical constraints of the block: columns that always had the same value
have this value, and columns that were always equal are equal. `keep` are the columns considered. -/
structure EmpiricallyTrue {I : Type} (e : EmpiricalConstraints) (step : ℕ)
    (blocks : List (BasicBlock I)) (keep : BlockCell → Bool) (rows : ℕ → ℕ → U) : Prop where
  constant : ∀ k pc c v, (superBlockPcs step blocks)[k]? = some pc →
    e.range (pcU32 pc) c = some (v, v) →
    (∀ j, (superBlockPcs step blocks)[j]? = some (pcU32 pc) → keep (j, c) = true) →
    rows k c = (v : U)
  equal : ∀ x y, superBlockEquates e 0 blocks x y → keep x = true → keep y = true →
    rows x.1 x.2 = rows y.1 y.2

/-- What is assumed of the machine of an instruction: bus ids are numbers of the field, there are no
computed columns, the states have the same number of fields, and a row that receives a state sends
one as often. -/
structure InstrAir.Good (execBus p width : ℕ) (i : InstrAir U) : Prop where
  ids : ∀ b ∈ i.machine.bus, b.id < p
  derived : i.machine.derived = []
  width : ∀ b ∈ i.machine.onBus execBus, b.args.length = width
  sends : ∀ ρ, i.machine.Holds ρ → ∀ r s, i.machine.onBus execBus = [r, s] →
    s.mult.value ρ = - r.mult.value ρ

/-- The messages as the optimizer sees them. -/
def asInteractions {p : ℕ} (φ : U → ZMod p) (l : List (ℕ × U × List U)) :
    List (BusInteraction (ZMod p)) :=
  l.map fun x => ⟨x.1, φ x.2.1, x.2.2.map φ⟩

end

end Verif
