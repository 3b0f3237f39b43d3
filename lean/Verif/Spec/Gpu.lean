import Verif.Model.Gpu
import Verif.Spec.Periphery

/-!
# Specification: the GPU computes what the CPU computes
-/

namespace Verif

/-- How many values have to be kept at the same time to evaluate the expression from left to right. -/
def AlgExpr.stackNeed {T R : Type} : AlgExpr T R → ℕ
  | reference _ => 1
  | number _ => 1
  | minus e => e.stackNeed
  | binary l _ r => max l.stackNeed (r.stackNeed + 1)

/-- How many values have to be kept at the same time to compute a column: the denominator comes first. -/
def SymMethod.stackNeed {T R : Type} : SymMethod T R → ℕ
  | constant _ => 1
  | quotientOrZero e1 e2 => max e2.stackNeed (e1.stackNeed + 1)

/-- The values, row by row, are those of a buffer with the columns one after the other. -/
def SameMatrix {F : Type} (height width : ℕ) (values : List F) (b : DeviceBuffer F) : Prop :=
  values.length = height * width ∧ b.size = width * height ∧
  ∀ r < height, ∀ c < width, values[r * width + c]? = some (b.cell (c * height + r))

/-- The chips on the device write the same matrices as those of the CPU. -/
def SameChips {A R F : Type} (gen : A → List R → DummyTrace F) (gen' : A → List R → DeviceMatrix F) : Prop :=
  ∀ a rs, (gen' a rs).width = (gen a rs).width ∧
    SameMatrix (gen' a rs).height (gen' a rs).width (gen a rs).values (gen' a rs).buffer

/-- The expressions of the machine can be evaluated with the stack of the device. -/
def FitsStack {T : Type} (m : SymMachine T ℕ) : Prop :=
  (∀ d ∈ m.derived, d.2.stackNeed ≤ stackCapacity) ∧
  ∀ b ∈ m.bus, ∀ e ∈ b.mult :: b.args, e.stackNeed ≤ stackCapacity

/-- Each column is copied from one place only. -/
def CopiedOnce (subs : List (List (ℕ × ℕ))) : Prop := (subs.flatten.map Prod.snd).Nodup

/-- The place of an entry of a lookup table: the table of counters and the index. -/
inductive TablePlace (q : GpuPeriphery) (c : PeripheryChips) : ℕ → List ℕ → GpuTable → ℕ → Prop
  | range (x bits : ℕ) (hb : bits ≤ c.rangeMaxBits) (hx : x < 2 ^ bits) :
      TablePlace q c q.rangeBus [x, bits] .range (2 ^ bits + x - 1)
  | tuple (x y : ℕ) (hx : x < c.tupleSizes.1) (hy : y < c.tupleSizes.2) :
      TablePlace q c q.tupleBus [x, y] .tuple (x * c.tupleSizes.2 + y)
  | bitwiseRange (x y : ℕ) (hx : x < 256) (hy : y < 256) :
      TablePlace q c q.bitwiseBus [x, y, 0, 0] .bitwiseRange (x * 256 + y)
  | bitwiseXor (x y : ℕ) (hx : x < 256) (hy : y < 256) :
      TablePlace q c q.bitwiseBus [x, y, x ^^^ y, 1] .bitwiseXor (x * 256 + y)

/-- The counters on the device are those of the CPU, modulo the size of a counter. -/
def SameCounters (q : GpuPeriphery) (ids : PeripheryBusIds) (c : PeripheryChips) (hist : GpuTable → ℕ → ℕ) : Prop :=
  ∀ bus entry table index, TablePlace q c bus entry table index →
    hist table index = c.multiplicity ids bus entry % 2 ^ 32

end Verif
