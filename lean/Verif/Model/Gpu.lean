import Verif.Model.Periphery

/-!
# Model of the trace generation on the GPU

`openvm/src/powdr_extension/trace_generator/cuda/mod.rs` (compilation of expressions to bytecode, the input of the
kernels), `openvm/src/cuda_abi.rs` (the opcodes) and `openvm/cuda/src` (the kernels: `expr_eval.cuh`,
`apc_tracegen.cu` and `apc_apply_bus.cu`).

Simplifications:
* A buffer on the device is a size and its cells. Reading or writing outside of a buffer, and an `assert` that fails
  on the device, is `none`.
* Threads run in any interleaving of their steps. A step of a thread is one iteration of its inner loop; the steps of
  different threads touch different rows, or add to a counter atomically.
* The conversions `as i32` and `as usize` lose nothing; the conversions `as u32` are modelled.
* The chips of OpenVM, their matrices on the device, `lookup::Histogram` and `BitwiseOperationLookup` are not part of
  the code. A table of counters is a function; adding to a counter outside of the table is `none`.
-/

namespace Verif

/-! ## Bytecode -/

/-- `OpCode` (cuda_abi.rs:137-147, expr_eval.cuh:12-20). -/
inductive GpuOpCode where
  | pushApc
  | pushConst
  | add
  | sub
  | mul
  | neg
  | invOrZero
deriving DecidableEq

/-- `OpCode as u32` (cuda_abi.rs:139-147). -/
def GpuOpCode.code : GpuOpCode → ℕ
  | pushApc => 0
  | pushConst => 1
  | add => 2
  | sub => 3
  | mul => 4
  | neg => 5
  | invOrZero => 6

/-- The opcodes of the device (expr_eval.cuh:12-20). -/
def GpuOpCode.ofCode : ℕ → Option GpuOpCode
  | 0 => some pushApc
  | 1 => some pushConst
  | 2 => some add
  | 3 => some sub
  | 4 => some mul
  | 5 => some neg
  | 6 => some invOrZero
  | _ => none

/-- The opcode of a binary operator (cuda/mod.rs:74-78). -/
def AlgOp.gpuOpCode : AlgOp → GpuOpCode
  | .add => .add
  | .sub => .sub
  | .mul => .mul

section
variable {p : ℕ}

/-- `emit_expr` (cuda/mod.rs:39-81): the bytecode after the instructions for an expression have been appended. -/
def emitExpr (columns : List ℕ) (height : ℕ) (bc : List ℕ) : AlgExpr (ZMod p) ℕ → Except Panic (List ℕ)
  | .number c => .ok (bc ++ [GpuOpCode.pushConst.code, c.val])
  | .reference r => do
    let i ← columnIndex columns r
    pure (bc ++ [GpuOpCode.pushApc.code, i * height % 2 ^ 32])
  | .minus e => do
    let bc ← emitExpr columns height bc e
    pure (bc ++ [GpuOpCode.neg.code])
  | .binary l op r => do
    let bc ← emitExpr columns height bc l
    let bc ← emitExpr columns height bc r
    pure (bc ++ [op.gpuOpCode.code])

/-- `ExprSpan` (cuda_abi.rs:162-169, expr_eval.cuh:91-95). -/
structure ExprSpan where
  off : ℕ
  len : ℕ
deriving DecidableEq

/-- `emit_expr_span` (cuda/mod.rs:83-97). -/
def emitExprSpan (columns : List ℕ) (height : ℕ) (bc : List ℕ) (e : AlgExpr (ZMod p) ℕ) :
    Except Panic (List ℕ × ExprSpan) := do
  let off := bc.length % 2 ^ 32
  let bc ← emitExpr columns height bc e
  pure (bc, ⟨off, bc.length % 2 ^ 32 - off⟩)

/-- `DerivedExprSpec` (cuda_abi.rs:88-95). -/
structure DerivedExprSpec where
  colBase : ℕ
  span : ExprSpan
deriving DecidableEq

/-- The bytecode of one derived column (cuda/mod.rs:119-132). -/
def emitMethod (columns : List ℕ) (height : ℕ) (bc : List ℕ) : SymMethod (ZMod p) ℕ → Except Panic (List ℕ)
  | .constant c => .ok (bc ++ [GpuOpCode.pushConst.code, c.val])
  | .quotientOrZero e1 e2 => do
    let bc ← emitExpr columns height bc e2
    let bc := bc ++ [GpuOpCode.invOrZero.code]
    let bc ← emitExpr columns height bc e1
    pure (bc ++ [GpuOpCode.mul.code])

/-- `compile_derived_to_gpu` (cuda/mod.rs:99-141), from the specs and the bytecode so far. -/
def compileDerived (columns : List ℕ) (height : ℕ) :
    List (ℕ × SymMethod (ZMod p) ℕ) → List DerivedExprSpec × List ℕ → Except Panic (List DerivedExprSpec × List ℕ)
  | [], acc => .ok acc
  | d :: t, (specs, bc) => do
    let i ← columnIndex columns d.1
    let off := bc.length % 2 ^ 32
    let bc ← emitMethod columns height bc d.2
    compileDerived columns height t (specs ++ [⟨i * height, ⟨off, bc.length % 2 ^ 32 - off⟩⟩], bc)

/-- `DevInteraction` (cuda_abi.rs:149-160). -/
structure DevInteraction where
  busId : ℕ
  numArgs : ℕ
  argsIndexOff : ℕ
deriving DecidableEq

/-- The spans of the multiplicity and of the arguments (cuda/mod.rs:155-168), after those so far. -/
def emitSpans (columns : List ℕ) (height : ℕ) :
    List (AlgExpr (ZMod p) ℕ) → List ExprSpan × List ℕ → Except Panic (List ExprSpan × List ℕ)
  | [], acc => .ok acc
  | e :: t, (spans, bc) => do
    let (bc, span) ← emitExprSpan columns height bc e
    emitSpans columns height t (spans ++ [span], bc)

/-- `compile_bus_to_gpu` (cuda/mod.rs:143-177), from the interactions, spans and bytecode so far. -/
def compileBus (columns : List ℕ) (height : ℕ) :
    List (SymBus (ZMod p) ℕ) → List DevInteraction × List ExprSpan × List ℕ →
    Except Panic (List DevInteraction × List ExprSpan × List ℕ)
  | [], acc => .ok acc
  | b :: t, (interactions, spans, bc) => do
    let off := spans.length % 2 ^ 32
    let (spans, bc) ← emitSpans columns height (b.mult :: b.args) (spans, bc)
    compileBus columns height t
      (interactions ++ [⟨b.id % 2 ^ 32, b.args.length % 2 ^ 32, off⟩], spans, bc)

/-! ## The stack machine -/

/-- `STACK_CAPACITY` (expr_eval.cuh:22). -/
def stackCapacity : ℕ := 16

/-- `stack_push` (expr_eval.cuh:24-28). The top of the stack is the head of the list. -/
def stackPush (stack : List (ZMod p)) (v : ZMod p) : Option (List (ZMod p)) :=
  if stack.length < stackCapacity then some (v :: stack) else none

/-- `stack_pop` (expr_eval.cuh:30-33). -/
def stackPop : List (ZMod p) → Option (ZMod p × List (ZMod p))
  | [] => none
  | v :: t => some (v, t)

/-- An instruction with two operands (expr_eval.cuh:53-70): the top of the stack is the second one. -/
def stackBinary (f : ZMod p → ZMod p → ZMod p) (stack : List (ZMod p)) : Option (List (ZMod p)) := do
  let (b, stack) ← stackPop stack
  let (a, stack) ← stackPop stack
  stackPush stack (f a b)

/-- An instruction with one operand (expr_eval.cuh:71-81). -/
def stackUnary (f : ZMod p → ZMod p) (stack : List (ZMod p)) : Option (List (ZMod p)) := do
  let (a, stack) ← stackPop stack
  stackPush stack (f a)

/-- `eval_expr` (expr_eval.cuh:35-89) on the instructions of the span, for reading a cell of the matrix and a row. The
operand of the last instruction is not read from outside of the span. -/
def evalCode (read : ℕ → Option (ZMod p)) (r : ℕ) : List ℕ → List (ZMod p) → Option (ZMod p)
  | [], stack =>
    match stack with
    | [v] => some v
    | _ => none
  | op :: code, stack =>
    match GpuOpCode.ofCode op, code with
    | some .pushApc, base :: code => do
      let v ← read (base + r)
      let stack ← stackPush stack v
      evalCode read r code stack
    | some .pushConst, u :: code => do
      let stack ← stackPush stack (u : ZMod p)
      evalCode read r code stack
    | some .add, code => do
      let stack ← stackBinary (fun a b => a + b) stack
      evalCode read r code stack
    | some .sub, code => do
      let stack ← stackBinary (fun a b => a - b) stack
      evalCode read r code stack
    | some .mul, code => do
      let stack ← stackBinary (fun a b => a * b) stack
      evalCode read r code stack
    | some .neg, code => do
      let stack ← stackUnary (fun a => -a) stack
      evalCode read r code stack
    | some .invOrZero, code => do
      let stack ← stackUnary (fun a => if a = 0 then 0 else a⁻¹) stack
      evalCode read r code stack
    | _, _ => none

/-- `eval_arg` (expr_eval.cuh:97-105). -/
def evalArg (span : ExprSpan) (bytecode : List ℕ) (read : ℕ → Option (ZMod p)) (r : ℕ) : Option (ZMod p) :=
  evalCode read r ((bytecode.drop span.off).take span.len) []

end

/-! ## Kernels -/

/-- A buffer on the device. -/
structure DeviceBuffer (F : Type) where
  size : ℕ
  cell : ℕ → F

section
variable {F : Type}

/-- Read a cell. -/
def DeviceBuffer.read (b : DeviceBuffer F) (i : ℕ) : Option F := if i < b.size then some (b.cell i) else none

/-- Write a cell. -/
def DeviceBuffer.write (b : DeviceBuffer F) (i : ℕ) (v : F) : Option (DeviceBuffer F) :=
  if i < b.size then some ⟨b.size, Function.update b.cell i v⟩ else none

/-- The steps of the threads of a kernel, one list for each thread, in some interleaving. -/
inductive Interleaving {α : Type} : List (List α) → List α → Prop
  | done {threads : List (List α)} (h : ∀ t ∈ threads, t = []) : Interleaving threads []
  | step {threads : List (List α)} {i : ℕ} {a : α} {t l : List α} (h : threads[i]? = some (a :: t))
      (hl : Interleaving (threads.set i t) l) : Interleaving threads (a :: l)

/-- The steps of the threads of a kernel with the loops `for (r = tid; r < H; r += total_threads)` and
`for (i = 0; i < n; ++i)` (apc_tracegen.cu:43-64, 85-102). -/
def rowThreads {α : Type} (threads height : ℕ) (items : List α) : List (List (ℕ × α)) :=
  (List.range threads).map fun tid =>
    ((List.range height).filter fun r => r % threads = tid).flatMap fun r => items.map fun i => (r, i)

/-- The number of threads (apc_tracegen.cu:118-122, 138-142). -/
def launchThreads (height : ℕ) : ℕ :=
  let g := (height + 256 - 1) / 256
  (if g = 0 then 1 else g) * 256

/-- `OriginalAir` (cuda_abi.rs:66-73, apc_tracegen.cu:10-15), without the width. -/
structure OriginalAir (F : Type) where
  height : ℕ
  buffer : DeviceBuffer F
  rowBlockSize : ℕ

/-- `Subst` (cuda_abi.rs:75-86, apc_tracegen.cu:17-22). -/
structure GpuSubst where
  airIndex : ℕ
  col : ℕ
  row : ℕ
  apcCol : ℕ
deriving DecidableEq

/-- One step of `apc_tracegen_kernel` (apc_tracegen.cu:46-63). -/
def tracegenStep [Zero F] (height calls : ℕ) (airs : List (OriginalAir F)) (out : DeviceBuffer F)
    (x : ℕ × GpuSubst) : Option (DeviceBuffer F) :=
  if x.1 < calls then do
    let air ← airs[x.2.airIndex]?
    let v ← air.buffer.read (x.2.col * air.height + (x.2.row + x.1 * air.rowBlockSize))
    out.write (x.2.apcCol * height + x.1) v
  else out.write (x.2.apcCol * height + x.1) 0

/-- One step of `apc_apply_derived_expr_kernel` (apc_tracegen.cu:86-101). -/
def derivedStep {p : ℕ} (calls : ℕ) (bytecode : List ℕ) (out : DeviceBuffer (ZMod p)) (x : ℕ × DerivedExprSpec) :
    Option (DeviceBuffer (ZMod p)) :=
  if x.1 < calls then do
    let v ← evalArg x.2.span bytecode out.read x.1
    out.write (x.2.colBase + x.1) v
  else out.write (x.2.colBase + x.1) 0

end

/-! ## The input of the kernels -/

/-- `DeviceMatrix`: the columns one after the other. -/
structure DeviceMatrix (F : Type) where
  height : ℕ
  width : ℕ
  buffer : DeviceBuffer F

section
variable {A F : Type} [DecidableEq A]

/-- The loop over the chips (cuda/mod.rs:231-259): the matrices by AIR name, without those of height zero. -/
def gpuDummyTraces {R : Type} (gen : A → List R → DeviceMatrix F) :
    List A → OriginalArenas A R → List (A × DeviceMatrix F)
  | [], _ => []
  | a :: t, o =>
    match o.takeReal a with
    | (some ra, o') =>
      if 0 < (gen a ra.records).height then (a, gen a ra.records) :: gpuDummyTraces gen t o'
      else gpuDummyTraces gen t o'
    | (none, o') => gpuDummyTraces gen t o'

/-- The substitutions of the instructions on an AIR (cuda/mod.rs:282-294). -/
def gpuGroup (kept : List (A × List (ℕ × ℕ))) (a : A) : List (List (ℕ × ℕ)) :=
  (kept.filter fun x => x.1 = a).map Prod.snd

/-- The `Subst`s of one row of an AIR (cuda/mod.rs:309-318). -/
def gpuRowSubsts (columns : List ℕ) (airIndex row : ℕ) (subs : List (ℕ × ℕ)) : Except Panic (List GpuSubst) :=
  subs.mapM fun s => do
    let i ← columnIndex columns s.2
    pure ⟨airIndex, s.1, row, i⟩

/-- The `Subst`s of one AIR (cuda/mod.rs:303-320). -/
def gpuAirSubsts (columns : List ℕ) (kept : List (A × List (ℕ × ℕ))) (x : A × ℕ) :
    Except Panic (List GpuSubst) := do
  let l ← (gpuGroup kept x.1).zipIdx.mapM fun y => gpuRowSubsts columns x.2 y.2 y.1
  pure l.flatten

/-- The `OriginalAir` of one AIR (cuda/mod.rs:322-331). -/
def gpuOriginalAir (traces : List (A × DeviceMatrix F)) (kept : List (A × List (ℕ × ℕ))) (a : A) :
    Except Panic (OriginalAir F) :=
  match traces.find? fun y => y.1 = a with
  | none => .error .assertion
  | some y => .ok ⟨y.2.height, y.2.buffer, (gpuGroup kept a).length⟩

end

/-- What is sent to the device. -/
structure GpuPlan (F : Type) where
  width : ℕ
  height : ℕ
  calls : ℕ
  airs : List (OriginalAir F)
  substs : List GpuSubst
  specs : List DerivedExprSpec
  derivedCode : List ℕ
  interactions : List DevInteraction
  spans : List ExprSpan
  busCode : List ℕ

/-- `try_generate_witness` (cuda/mod.rs:201-401): what is sent to the device. `order` is the order in which the hash map
of the AIRs is iterated. -/
def gpuPlan {A R : Type} [DecidableEq A] {p : ℕ} (gen : A → List R → DeviceMatrix (ZMod p)) (chips : List A)
    (order : List A) (o : OriginalArenas A R) (airs : List A) (subs : List (List (ℕ × ℕ)))
    (m : SymMachine (ZMod p) ℕ) : Except Panic (GpuPlan (ZMod p)) := do
  let traces := gpuDummyTraces gen chips.reverse o
  let columns := m.mainColumns
  let height := nextPowerOfTwoOrZero o.numberOfCalls
  if airs.length ≠ subs.length then .error .assertion
  else
    let kept := (airs.zip subs).filter fun x => !x.2.isEmpty
    let substs ← order.zipIdx.mapM (gpuAirSubsts columns kept)
    let originalAirs ← order.mapM (gpuOriginalAir traces kept)
    let (specs, derivedCode) ← compileDerived columns height m.derived ([], [])
    let (interactions, spans, busCode) ← compileBus columns height m.bus ([], [], [])
    pure ⟨columns.length, height, o.numberOfCalls, originalAirs, substs.flatten, specs, derivedCode, interactions,
      spans, busCode⟩

/-- The matrix of the precompile after the kernels `apc_tracegen` and `apc_apply_derived_expr`
(cuda/mod.rs:269-351), which run one after the other, each with the steps of its threads in the given order. -/
def GpuPlan.run {p : ℕ} (g : GpuPlan (ZMod p)) (steps1 : List (ℕ × GpuSubst)) (steps2 : List (ℕ × DerivedExprSpec)) :
    Option (DeviceBuffer (ZMod p)) := do
  let out ← steps1.foldlM (tracegenStep g.height g.calls g.airs) ⟨g.width * g.height, fun _ => 0⟩
  steps2.foldlM (derivedStep g.calls g.derivedCode) out

/-! ## The lookups -/

/-- The tables of counters. -/
inductive GpuTable where
  | range
  | tuple
  | bitwiseRange
  | bitwiseXor
deriving DecidableEq

/-- The lookup chips on the device (cuda/mod.rs:368-381): the buses and the sizes of the tables. -/
structure GpuPeriphery where
  rangeBus : ℕ
  rangeBins : ℕ
  tupleBus : ℕ
  tupleSizes : ℕ × ℕ
  bitwiseBus : ℕ

/-- The bus ids (cuda/mod.rs:368-381): the tuple range checker and the bitwise lookup have to be there. -/
def gpuPeriphery (ids : PeripheryBusIds) (rangeBins : ℕ) (tupleSizes : ℕ × ℕ) : Except Panic GpuPeriphery :=
  match ids.tupleRangeChecker, ids.bitwiseLookup with
  | some t, some b => .ok ⟨ids.rangeChecker % 2 ^ 32, rangeBins, t % 2 ^ 32, tupleSizes, b % 2 ^ 32⟩
  | _, _ => .error .assertion

/-- The number of counters of a table (apc_apply_bus.cu:21, 73, 88, 106). -/
def GpuPeriphery.bins (q : GpuPeriphery) : GpuTable → ℕ
  | .range => q.rangeBins
  | .tuple => q.tupleSizes.1 * q.tupleSizes.2 % 2 ^ 32
  | .bitwiseRange => 2 ^ 16
  | .bitwiseXor => 2 ^ 16

/-- The value of an argument of an interaction; argument `0` is the multiplicity (apc_apply_bus.cu:57-58, 64-67). -/
def gpuBusArg {p : ℕ} (spans : List ExprSpan) (bytecode : List ℕ) (out : DeviceBuffer (ZMod p)) (r : ℕ)
    (x : DevInteraction) (k : ℕ) : Option ℕ := do
  let span ← spans[x.argsIndexOff + k]?
  let v ← evalArg span bytecode out.read r
  some v.val

/-- The counters that one interaction increments, in order (apc_apply_bus.cu:54-114). -/
def gpuBusCounts {p : ℕ} (q : GpuPeriphery) (spans : List ExprSpan) (bytecode : List ℕ)
    (out : DeviceBuffer (ZMod p)) (r : ℕ) (x : DevInteraction) : Option (List (GpuTable × ℕ)) := do
  let m ← gpuBusArg spans bytecode out r x 0
  if m = 0 then some []
  else if x.busId = q.rangeBus then do
    let value ← gpuBusArg spans bytecode out r x 1
    let bits ← gpuBusArg spans bytecode out r x 2
    some (List.replicate m (.range, (2 ^ bits % 2 ^ 32 + value + 2 ^ 32 - 1) % 2 ^ 32))
  else if x.busId = q.tupleBus then do
    let v0 ← gpuBusArg spans bytecode out r x 1
    let v1 ← gpuBusArg spans bytecode out r x 2
    some (List.replicate m (.tuple, (v0 * q.tupleSizes.2 + v1) % 2 ^ 32))
  else if x.busId = q.bitwiseBus then do
    let x0 ← gpuBusArg spans bytecode out r x 1
    let y0 ← gpuBusArg spans bytecode out r x 2
    let selector ← gpuBusArg spans bytecode out r x 4
    if selector = 0 then some (List.replicate m (.bitwiseRange, x0 * 256 + y0))
    else if selector = 1 then some (List.replicate m (.bitwiseXor, x0 * 256 + y0))
    else none
  else some []

/-- The counters that the thread of a row increments (apc_apply_bus.cu:49-115). -/
def gpuThreadCounts {p : ℕ} (q : GpuPeriphery) (g : GpuPlan (ZMod p)) (out : DeviceBuffer (ZMod p)) (r : ℕ) :
    Option (List (GpuTable × ℕ)) :=
  if g.calls ≤ r then some []
  else do
    let l ← g.interactions.mapM (gpuBusCounts q g.spans g.busCode out r)
    some l.flatten

/-- The threads of `apc_apply_bus_kernel` (apc_apply_bus.cu:149-153): blocks of 128 threads. -/
def gpuBusThreads {p : ℕ} (q : GpuPeriphery) (g : GpuPlan (ZMod p)) (out : DeviceBuffer (ZMod p)) :
    Option (List (List (GpuTable × ℕ))) :=
  (List.range ((g.calls + 128 - 1) / 128 * 128)).mapM (gpuThreadCounts q g out)

/-- An atomic increment of a counter. -/
def addCount (q : GpuPeriphery) (hist : GpuTable → ℕ → ℕ) (x : GpuTable × ℕ) : Option (GpuTable → ℕ → ℕ) :=
  if x.2 < q.bins x.1 then
    some fun t i => if t = x.1 ∧ i = x.2 then (hist t i + 1) % 2 ^ 32 else hist t i
  else none

end Verif
