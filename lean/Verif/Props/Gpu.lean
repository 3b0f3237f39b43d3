import Verif.Proofs.GpuBus
import Verif.Props.Periphery
import Verif.Props.BuildTrace

/-!
# C72, C73, C74: trace generation on the GPU
-/

set_option linter.unusedSectionVars false

namespace Verif

/-! ## C72: bytecode -/

section
variable {p : ℕ} [Fact p.Prime]

/-- **C72.** The device evaluates the bytecode of an expression, wherever it is in the bytecode, to the value of the
expression, where the value of a column is read at the offset of the column, reduced to 32 bits, plus the row. This
needs that the expression does not need more than 16 values at a time. -/
theorem C72_exact {columns : List ℕ} {height : ℕ} {bc bc' : List ℕ} {e : AlgExpr (ZMod p) ℕ} {span : ExprSpan}
    (h : emitExprSpan columns height bc e = .ok (bc', span)) (hlen : bc'.length < 2 ^ 32) (hfit : e.stackNeed ≤ 16)
    {b : DeviceBuffer (ZMod p)} {r : ℕ} (hread : ∀ id ∈ e.refs, columns.idxOf id * height % 2 ^ 32 + r < b.size)
    (tail : List ℕ) :
    evalArg span (bc' ++ tail) b.read r =
      some (e.value fun id => b.cell (columns.idxOf id * height % 2 ^ 32 + r)) := by
  obtain ⟨-, -, h3⟩ := emitExprSpan_ok h
  have h3 := h3 hlen tail
  have hv := (evalCode_expr (columns := columns) (height := height) (r := r) (read := b.read)
    (σ := fun id => b.cell (columns.idxOf id * height % 2 ^ 32 + r)) e (fun id hid => by
      rw [DeviceBuffer.read, if_pos (hread id hid)]) [] []).1 (by rw [List.length_nil, Nat.zero_add]; exact hfit)
  rw [List.append_nil, ← h3] at hv
  exact hv

/-- **C72.** On a matrix whose cells can be addressed with 32 bits, the device evaluates the bytecode of an expression to
the value of the expression on the row. -/
theorem C72_value {columns : List ℕ} {height : ℕ} {bc bc' : List ℕ} {e : AlgExpr (ZMod p) ℕ} {span : ExprSpan}
    (h : emitExprSpan columns height bc e = .ok (bc', span)) (hlen : bc'.length < 2 ^ 32) (hfit : e.stackNeed ≤ 16)
    {b : DeviceBuffer (ZMod p)} (hb : b.size = columns.length * height) (hs : columns.length * height ≤ 2 ^ 32)
    {r : ℕ} (hr : r < height) (tail : List ℕ) :
    evalArg span (bc' ++ tail) b.read r = some (e.value fun id => b.cell (columns.idxOf id * height + r)) := by
  have href := (emitExprSpan_ok h).1
  have hlt : ∀ id ∈ e.refs, columns.idxOf id * height + r < columns.length * height := fun id hid =>
    cell_lt hr (List.idxOf_lt_length_iff.2 (href id hid))
  have hmod : ∀ id ∈ e.refs, columns.idxOf id * height % 2 ^ 32 = columns.idxOf id * height := fun id hid =>
    Nat.mod_eq_of_lt (by have := hlt id hid; omega)
  rw [C72_exact h hlen hfit (fun id hid => by rw [hmod id hid, hb]; exact hlt id hid) tail]
  congr 1
  exact value_congr e fun id hid => by rw [hmod id hid]

/-- **C72.** An expression that needs more than 16 values at a time stops the device. -/
theorem C72_overflow {columns : List ℕ} {height : ℕ} {bc bc' : List ℕ} {e : AlgExpr (ZMod p) ℕ} {span : ExprSpan}
    (h : emitExprSpan columns height bc e = .ok (bc', span)) (hlen : bc'.length < 2 ^ 32) (hfit : 16 < e.stackNeed)
    {b : DeviceBuffer (ZMod p)} {r : ℕ} (hread : ∀ id ∈ e.refs, columns.idxOf id * height % 2 ^ 32 + r < b.size)
    (tail : List ℕ) : evalArg span (bc' ++ tail) b.read r = none := by
  obtain ⟨-, -, h3⟩ := emitExprSpan_ok h
  have h3 := h3 hlen tail
  have hv := (evalCode_expr (columns := columns) (height := height) (r := r) (read := b.read)
    (σ := fun id => b.cell (columns.idxOf id * height % 2 ^ 32 + r)) e (fun id hid => by
      rw [DeviceBuffer.read, if_pos (hread id hid)]) [] []).2 (by rw [List.length_nil, Nat.zero_add]; omega)
  rw [List.append_nil, ← h3] at hv
  exact hv

/-- **C72.** The bytecode of an expression can be made if and only if its columns are columns of the matrix. -/
theorem C72_emits {columns : List ℕ} {height : ℕ} {bc : List ℕ} {e : AlgExpr (ZMod p) ℕ} :
    (∃ out, emitExprSpan columns height bc e = .ok out) ↔ ∀ r ∈ e.refs, r ∈ columns := by
  constructor
  · rintro ⟨⟨bc', span⟩, h⟩
    exact (emitExprSpan_ok h).1
  · intro h
    rw [emitExprSpan, emitExpr_ok e h]
    exact ⟨_, rfl⟩

/-- **C72.** On larger matrices a wrong column is read: with `2^20` rows, column 4096 is read as column 0. -/
theorem C72_wraps {columns : List ℕ} {id : ℕ} (hid : id ∈ columns) (hi : columns.idxOf id = 4096) {bc bc' : List ℕ}
    {span : ExprSpan} (h : emitExprSpan (p := p) columns (2 ^ 20) bc (.reference id) = .ok (bc', span))
    (hlen : bc'.length < 2 ^ 32) {b : DeviceBuffer (ZMod p)} (hb : b.size = columns.length * 2 ^ 20) {r : ℕ}
    (hr : r < 2 ^ 20) (tail : List ℕ) :
    evalArg span (bc' ++ tail) b.read r = some (b.cell r) ∧ r < b.size := by
  have hl := List.idxOf_lt_length_iff.2 hid
  have h0 : columns.idxOf id * 2 ^ 20 % 2 ^ 32 = 0 := by
    rw [hi]
    norm_num
  have hrs : r < b.size := by
    rw [hb]
    omega
  refine ⟨?_, hrs⟩
  rw [C72_exact h hlen (show 1 ≤ 16 by decide) (fun x hx => ?_) tail]
  · rw [AlgExpr.value, h0, Nat.zero_add]
  · simp only [AlgExpr.refs, List.mem_cons, List.not_mem_nil, or_false] at hx
    rw [hx, h0, Nat.zero_add]
    exact hrs

end

/-- `x5 * (x2 - x5) + 3` with the columns 2 and 5, in the middle of the bytecode. -/
def gpuExpr : AlgExpr (ZMod 17) ℕ :=
  .binary (.binary (.reference 5) .mul (.binary (.reference 2) .sub (.reference 5))) .add (.number 3)

example : (match emitExprSpan [2, 5] 4 [1, 7] gpuExpr with
    | .ok (bc, span) => decide (bc = [1, 7, 0, 4, 0, 0, 0, 4, 3, 4, 1, 3, 2] ∧ span = ⟨2, 11⟩ ∧
        evalArg span (bc ++ [5]) (DeviceBuffer.read ⟨8, fun i => (i : ZMod 17)⟩) 2 = some (6 * (2 - 6) + 3))
    | _ => false) = true := by decide +kernel

example : gpuExpr.stackNeed = 3 := by decide

/-- `x + (x + (... + x))`. -/
def deepExpr : ℕ → AlgExpr (ZMod 17) ℕ
  | 0 => .reference 0
  | n + 1 => .binary (.reference 0) .add (deepExpr n)

/-- With 16 nested additions, the stack overflows. -/
example : (deepExpr 15).stackNeed = 16 ∧ (deepExpr 16).stackNeed = 17 ∧
    (match emitExprSpan [0] 1 [] (deepExpr 15), emitExprSpan [0] 1 [] (deepExpr 16) with
    | .ok (bc, span), .ok (bc', span') =>
      decide (evalArg span bc (DeviceBuffer.read ⟨1, fun _ => (2 : ZMod 17)⟩) 0 = some 32 ∧
        evalArg span' bc' (DeviceBuffer.read ⟨1, fun _ => (2 : ZMod 17)⟩) 0 = none)
    | _, _ => false) = true := by decide +kernel

/-! ## C73: the matrix -/

section
variable {A R : Type} [LinearOrder A] {p : ℕ} [Fact p.Prime]

theorem compileDerived_exists {columns : List ℕ} {height : ℕ} (ds : List (ℕ × SymMethod (ZMod p) ℕ))
    (h : ∀ d ∈ ds, d.1 ∈ columns ∧ ∀ r ∈ d.2.refs, r ∈ columns) (acc : List DerivedExprSpec × List ℕ) :
    ∃ out, compileDerived columns height ds acc = .ok out := by
  induction ds generalizing acc with
  | nil => exact ⟨acc, rfl⟩
  | cons d t ih =>
    obtain ⟨specs, bc⟩ := acc
    obtain ⟨h1, h2⟩ := h d List.mem_cons_self
    rw [compileDerived, columnIndex_ok h1]
    simp only [bind, Except.bind]
    rw [emitMethod_ok d.2 h2]
    exact ih (fun x hx => h x (List.mem_cons_of_mem _ hx)) _

theorem emitSpans_exists {columns : List ℕ} {height : ℕ} (es : List (AlgExpr (ZMod p) ℕ))
    (h : ∀ e ∈ es, ∀ r ∈ e.refs, r ∈ columns) (acc : List ExprSpan × List ℕ) :
    ∃ out, emitSpans columns height es acc = .ok out := by
  induction es generalizing acc with
  | nil => exact ⟨acc, rfl⟩
  | cons e t ih =>
    obtain ⟨spans, bc⟩ := acc
    rw [emitSpans, emitExprSpan, emitExpr_ok e (h e List.mem_cons_self)]
    exact ih (fun x hx => h x (List.mem_cons_of_mem _ hx)) _

theorem compileBus_exists {columns : List ℕ} {height : ℕ} (bs : List (SymBus (ZMod p) ℕ))
    (h : ∀ b ∈ bs, ∀ e ∈ b.mult :: b.args, ∀ r ∈ e.refs, r ∈ columns)
    (acc : List DevInteraction × List ExprSpan × List ℕ) :
    ∃ out, compileBus columns height bs acc = .ok out := by
  induction bs generalizing acc with
  | nil => exact ⟨acc, rfl⟩
  | cons b t ih =>
    obtain ⟨xs, spans, bc⟩ := acc
    rw [compileBus]
    obtain ⟨⟨spans', bc'⟩, e⟩ := emitSpans_exists (height := height) (b.mult :: b.args) (h b List.mem_cons_self) (spans, bc)
    rw [e]
    exact ih (fun x hx => h x (List.mem_cons_of_mem _ hx)) _

/-- **C73.** If the CPU can generate the witness and the computed columns use only columns of the machine, everything that
is sent to the device can be made, whatever the order in which the AIRs are visited. -/
theorem C73_plan {gen : A → List R → DummyTrace (ZMod p)} {gen' : A → List R → DeviceMatrix (ZMod p)}
    (hg : SameChips gen gen') {chips order : List A} {o : OriginalArenas A R} {airs : List A}
    {subs : List (List (ℕ × ℕ))} {m : SymMachine (ZMod p) ℕ} {values : List (ZMod p)}
    {messages : List (List (ℕ × ZMod p × List (ZMod p)))} (hc : 0 < o.numberOfCalls)
    (h : generateWitness gen chips (some o) airs subs m = .ok (values, messages))
    (hd : ∀ d ∈ m.derived, d.1 ∈ m.refs ∧ ∀ r ∈ d.2.refs, r ∈ m.refs)
    (ho : order.Perm (keptAirs airs subs).dedup) :
    ∃ g, gpuPlan gen' chips order o airs subs m = .ok g := by
  obtain ⟨h1, hcol, D, hD1, -⟩ := cpu_rows hg hc h
  obtain ⟨l, q1, -⟩ := gpuAirSubsts_ok (columns := m.mainColumns) (kept := keptInstrs airs subs)
    (fun x hx s hs => hcol _ ⟨x.2, (List.of_mem_zip (List.mem_filter.1 hx).1).2, s.1, hs⟩) order
  have q2 := gpu_airs (kept := keptInstrs airs subs) (D := D)
    fun a ha => hD1 a (List.mem_dedup.1 (ho.mem_iff.1 ha))
  obtain ⟨⟨specs, dcode⟩, q3⟩ := compileDerived_exists (columns := m.mainColumns)
    (height := nextPowerOfTwoOrZero o.numberOfCalls) m.derived
    (fun d hd' => ⟨mem_mainColumns.2 (hd d hd').1, fun r hr => mem_mainColumns.2 ((hd d hd').2 r hr)⟩) ([], [])
  obtain ⟨⟨xs, spans, bcode⟩, q4⟩ := compileBus_exists (columns := m.mainColumns)
    (height := nextPowerOfTwoOrZero o.numberOfCalls) m.bus (fun b hb e he r hr => by
      refine mem_mainColumns.2 (List.mem_flatMap.2 ⟨e, ?_, hr⟩)
      exact List.mem_append_right _ (List.mem_flatMap.2 ⟨b, hb, he⟩)) ([], [], [])
  unfold gpuPlan
  simp only
  rw [if_neg (by simpa using h1)]
  have q1' : order.zipIdx.mapM (gpuAirSubsts m.mainColumns
      ((airs.zip subs).filter fun x => !x.2.isEmpty)) = .ok l := q1
  have q2' : order.mapM (gpuOriginalAir (gpuDummyTraces gen' chips.reverse o)
      ((airs.zip subs).filter fun x => !x.2.isEmpty)) = .ok _ := q2
  rw [q1', q2', q3, q4]
  exact ⟨_, rfl⟩

/-- **C73.** Whatever the order in which the AIRs are visited and the threads make their steps, the matrix on the device
is the matrix of the CPU. -/
theorem C73_matrix {gen : A → List R → DummyTrace (ZMod p)} {gen' : A → List R → DeviceMatrix (ZMod p)}
    (hg : SameChips gen gen') {chips order : List A} {o : OriginalArenas A R} {airs : List A}
    {subs : List (List (ℕ × ℕ))} {m : SymMachine (ZMod p) ℕ} {values : List (ZMod p)}
    {messages : List (List (ℕ × ZMod p × List (ZMod p)))} (hc : 0 < o.numberOfCalls)
    (h : generateWitness gen chips (some o) airs subs m = .ok (values, messages))
    (honce : CopiedOnce subs) (ho : order.Perm (keptAirs airs subs).dedup) (hfit : FitsStack m)
    {g : GpuPlan (ZMod p)} (hp : gpuPlan gen' chips order o airs subs m = .ok g) (hs : g.width * g.height ≤ 2 ^ 32)
    (hcode : g.derivedCode.length < 2 ^ 32) {steps1 : List (ℕ × GpuSubst)} {steps2 : List (ℕ × DerivedExprSpec)}
    (hs1 : Interleaving (rowThreads (launchThreads g.height) g.height g.substs) steps1)
    (hs2 : Interleaving (rowThreads (launchThreads g.height) g.height g.specs) steps2) :
    ∃ b, g.run steps1 steps2 = some b ∧ SameMatrix g.height g.width values b := by
  obtain ⟨b, e1, e2, rows, rfl, e4, -, e6, -⟩ := gpu_run hg hc h honce ho hfit hp hs hcode hs1 hs2
  have hlen : ∀ row ∈ rows, row.length = g.width := by
    intro row hrow
    obtain ⟨r, hr⟩ := List.mem_iff_getElem?.1 hrow
    have hlt := (List.getElem?_eq_some_iff.1 hr).1
    rw [e6 r (by omega)] at hr
    rw [← Option.some.inj hr, rowOf_length]
  obtain ⟨f1, f2⟩ := flatten_rows rows hlen
  refine ⟨b, e1, by rw [f1, e4], e2, fun r hr k hk => ?_⟩
  rw [f2 r _ (e6 r hr) k hk, rowOf_get hk]

/-- The threads of a kernel always have an interleaving. -/
theorem C73_runs {α : Type} (threads : List (List α)) : ∃ l, Interleaving threads l := Interleaving.exists threads

end

section
variable {p : ℕ} [Fact p.Prime] {U I : Type} [Field U] [DecidableEq U] {N : ℕ} {φ : U ≃+* ZMod p}
  {execBus step : ℕ} {c : OptimizerConfig p (Fin N)}
  {ok : RuleInput p (Fin N) → ConstraintSystem p (Fin N) → ConstraintSystem p (Fin N) → Prop}
  {air : ℕ × I → InstrAir U} {blocks : List (BasicBlock I)} {e : EmpiricalConstraints}
  {keep : Option (BlockCell → Bool)} {apc : SymMachine U ℕ} {subs : List (List (ℕ × ℕ))}

theorem apcSubs_sublist {T : Type} (m : SymMachine T ℕ) (l : List (List ℕ)) :
    (((l.map fun subs => (subs.zipIdx.filter fun x => x.1 ∈ m.refs).map fun x => (x.2, x.1)).flatten.map Prod.snd)
      : List ℕ).Sublist l.flatten := by
  induction l with
  | nil => simp
  | cons s l ih =>
    rw [List.map_cons, List.flatten_cons, List.map_append, List.flatten_cons]
    refine List.Sublist.append ?_ ih
    rw [List.map_map]
    have e : (Prod.snd ∘ fun x : ℕ × ℕ => (x.2, x.1)) = Prod.fst := rfl
    rw [e]
    have := (List.filter_sublist (l := s.zipIdx) (p := fun x => decide (x.1 ∈ m.refs))).map Prod.fst
    rw [List.zipIdx_map_fst] at this
    exact this

/-- **C73.** In a generated precompile each column is copied from one place only. -/
theorem C73_copied (r : BuildRun φ execBus step c ok air blocks e keep apc subs) : CopiedOnce subs := by
  have ha6 : r.a6.subs = r.a0.subs := by
    rw [(C37_column r.step6).2.1]
  have hn : r.a0.subs.flatten.Nodup := by
    rw [(C47_ids r.step0).1]
    exact List.nodup_range
  rw [CopiedOnce, r.substitutions, apcSubs, ha6]
  exact (apcSubs_sublist _ _).nodup hn

end

/-! ### A sample: that of `C64` -/

/-- A matrix on the device. -/
def deviceOf {F : Type} [Zero F] (t : DummyTrace F) : DeviceMatrix F :=
  let height := t.values.length / t.width
  ⟨height, t.width, ⟨t.width * height, fun i => t.values.getD (i % height * t.width + i / height) 0⟩⟩

theorem deviceOf_same {F : Type} [Zero F] (t : DummyTrace F) (h : t.width ∣ t.values.length) :
    SameMatrix (deviceOf t).height (deviceOf t).width t.values (deviceOf t).buffer := by
  have hlen : t.values.length = t.values.length / t.width * t.width := (Nat.div_mul_cancel h).symm
  refine ⟨hlen, rfl, fun r hr c hc => ?_⟩
  have hr' : r < t.values.length / t.width := hr
  have hc' : c < t.width := hc
  have e1 : (c * (t.values.length / t.width) + r) % (t.values.length / t.width) = r := by
    rw [Nat.mul_comm, Nat.mul_add_mod, Nat.mod_eq_of_lt hr']
  have e2 : (c * (t.values.length / t.width) + r) / (t.values.length / t.width) = c := by
    rw [Nat.add_comm, Nat.add_mul_div_right _ _ (by omega), Nat.div_eq_of_lt hr', Nat.zero_add]
  have hlt : r * t.width + c < t.values.length := by
    rw [hlen]
    exact cell_lt hc' hr'
  show t.values[r * t.width + c]? = some (t.values.getD ((c * (t.values.length / t.width) + r) %
    (t.values.length / t.width) * t.width + (c * (t.values.length / t.width) + r) / (t.values.length / t.width)) 0)
  rw [e1, e2, List.getD_eq_getElem?_getD, List.getElem?_eq_getElem hlt]
  rfl

theorem sampleGen_same : SameChips sampleGen fun a rs => deviceOf (sampleGen a rs) := by
  intro a rs
  refine ⟨rfl, deviceOf_same _ ?_⟩
  unfold sampleGen sampleWidth
  simp only
  by_cases ha : a = 0
  · rw [if_pos ha]
    have : ∀ rs : List ℕ, (rs.flatMap (sampleRow a)).length = 2 * rs.length := by
      intro rs
      induction rs with
      | nil => rfl
      | cons x t ih =>
        rw [List.flatMap_cons, List.length_append, ih, sampleRow, if_pos ha, List.length_cons]
        simp
        omega
    rw [List.length_append, this]
    exact Dvd.intro (rs.length + 1) (by simp; omega)
  · rw [if_neg ha]
    exact one_dvd _

example : CopiedOnce sampleSubs := by
  unfold CopiedOnce
  decide

example : FitsStack sampleMachine := by
  unfold FitsStack
  decide

/-- Three calls, from the states 3, 20 and 50, in two orders of the threads: the columns of the matrix of the CPU. -/
example : (match cachedMetas sampleAirs sampleSubs with
    | .ok metas =>
      match executeSegment sampleStep [1, 2, 3] sampleAirs sampleSubs metas 5 [3, 20, 50] none with
      | .ok (_, some o) =>
        match gpuPlan (fun a rs => deviceOf (sampleGen a rs)) [0, 1] [0] o sampleAirs sampleSubs sampleMachine with
        | .ok g =>
          let steps1 := (rowThreads 4 g.height g.substs).flatten
          let steps2 := (rowThreads 4 g.height g.specs).flatten
          let steps1' := (rowThreads 4 g.height g.substs).reverse.flatten
          let steps2' := (rowThreads 4 g.height g.specs).reverse.flatten
          let columns := [3, 20, 50, 0, 7, 24, 54, 0, 4, 21, 51, 0, 5, 5, 0, 0, 1, 1, 1, 0]
          decide (g.width = 5 ∧ g.height = 4 ∧ g.substs.length = 3 ∧ g.specs.length = 2) &&
          match g.run steps1 steps2, g.run steps1' steps2' with
          | some b, some b' => decide ((List.range 20).map b.cell = columns ∧ (List.range 20).map b'.cell = columns)
          | _, _ => false
        | _ => false
      | _ => false
    | _ => false) = true := by decide +kernel

/-! ## C74: the lookups -/

theorem gpuPeriphery_apart {ids : PeripheryBusIds} (hids : ids.Apart) {bins : ℕ} {sizes : ℕ × ℕ} {q : GpuPeriphery}
    (h : gpuPeriphery ids bins sizes = .ok q) :
    q.Apart ∧ q.rangeBus = ids.rangeChecker ∧ ids.tupleRangeChecker = some q.tupleBus ∧
      ids.bitwiseLookup = some q.bitwiseBus ∧ q.rangeBins = bins ∧ q.tupleSizes = sizes := by
  unfold gpuPeriphery at h
  cases ht : ids.tupleRangeChecker with
  | none => rw [ht] at h; cases h
  | some t =>
    cases hb : ids.bitwiseLookup with
    | none => rw [ht, hb] at h; cases h
    | some b =>
      rw [ht, hb] at h
      obtain ⟨r1, r2⟩ := hids.range
      obtain ⟨t1, t2, t3, t4⟩ := hids.tuple t ht
      obtain ⟨b1, b2, b3⟩ := hids.bitwise b hb
      have t4 : b ≠ t := fun he => t4 (by rw [hb, he])
      have mr : ids.rangeChecker % 2 ^ 32 = ids.rangeChecker := Nat.mod_eq_of_lt (by omega)
      have mt : t % 2 ^ 32 = t := Nat.mod_eq_of_lt (by omega)
      have mb : b % 2 ^ 32 = b := Nat.mod_eq_of_lt (by omega)
      simp only [mr, mt, mb] at h
      cases h
      exact ⟨⟨Ne.symm t3, Ne.symm b3, Ne.symm t4, r1, t1, b1⟩, rfl, rfl, rfl, rfl, rfl⟩

section
variable {A R : Type} [LinearOrder A] {p : ℕ} [Fact p.Prime]

theorem replay_sizes {ids : PeripheryBusIds} (hids : ids.Apart) (ms : List (ℕ × ZMod p × List (ZMod p)))
    {c c' : PeripheryChips} (hc : c.Serves ids) (hx : ∀ x ∈ ms, AllowedMessage ids c x)
    (h : ms.foldlM (replayMessage ids) c = .ok c') : c'.rangeMaxBits = c.rangeMaxBits ∧ c'.tupleSizes = c.tupleSizes := by
  induction ms generalizing c with
  | nil =>
    cases h
    exact ⟨rfl, rfl⟩
  | cons x ms ih =>
    obtain ⟨c1, h1, h2, h3, h4, h5⟩ := replayMessage_ok hids hc (hx x List.mem_cons_self)
    rw [List.foldlM_cons, h1] at h
    obtain ⟨h6, h7⟩ := ih h2 (fun y hy => by
      have := hx y (List.mem_cons_of_mem _ hy)
      unfold AllowedMessage at this ⊢
      rw [h3, h4]
      exact this) h
    exact ⟨h6.trans h3, h7.trans h4⟩

theorem tablePlace_congr {q : GpuPeriphery} {c c' : PeripheryChips} (h1 : c'.rangeMaxBits = c.rangeMaxBits)
    (h2 : c'.tupleSizes = c.tupleSizes) {bus : ℕ} {entry : List ℕ} {t : GpuTable} {i : ℕ}
    (h : TablePlace q c' bus entry t i) : TablePlace q c bus entry t i := by
  cases h with
  | range x bits hb hx => exact .range x bits (h1 ▸ hb) hx
  | tuple x y hx hy =>
    rw [h2] at hx hy ⊢
    exact .tuple x y hx hy
  | bitwiseRange x y hx hy => exact .bitwiseRange x y hx hy
  | bitwiseXor x y hx hy => exact .bitwiseXor x y hx hy

/-- **C74.** If the messages of the CPU are allowed, then the threads that apply the lookups do not stop, and whatever the
order of their atomic increments, counters that agree with those of the CPU before agree with them afterwards. All other
counters keep their values. -/
theorem C74_counters {gen : A → List R → DummyTrace (ZMod p)} {gen' : A → List R → DeviceMatrix (ZMod p)}
    (hg : SameChips gen gen') {chips order : List A} {o : OriginalArenas A R} {airs : List A}
    {subs : List (List (ℕ × ℕ))} {m : SymMachine (ZMod p) ℕ} {values : List (ZMod p)}
    {messages : List (List (ℕ × ZMod p × List (ZMod p)))} (hc : 0 < o.numberOfCalls)
    (h : generateWitness gen chips (some o) airs subs m = .ok (values, messages))
    (honce : CopiedOnce subs) (ho : order.Perm (keptAirs airs subs).dedup) (hfit : FitsStack m)
    {g : GpuPlan (ZMod p)} (hp : gpuPlan gen' chips order o airs subs m = .ok g) (hs : g.width * g.height ≤ 2 ^ 32)
    (hcode : g.derivedCode.length < 2 ^ 32) (hcode' : g.busCode.length < 2 ^ 32) (hspans : g.spans.length < 2 ^ 32)
    {steps1 : List (ℕ × GpuSubst)} {steps2 : List (ℕ × DerivedExprSpec)}
    (hs1 : Interleaving (rowThreads (launchThreads g.height) g.height g.substs) steps1)
    (hs2 : Interleaving (rowThreads (launchThreads g.height) g.height g.specs) steps2)
    {b : DeviceBuffer (ZMod p)} (hb : g.run steps1 steps2 = some b)
    {ids : PeripheryBusIds} (hids : ids.Apart) {c c' : PeripheryChips} (hserve : c.Serves ids)
    (hallowed : ∀ ms ∈ messages, ∀ x ∈ ms, AllowedMessage ids c x)
    (hreplay : replayMessages ids c messages = .ok c') {bins : ℕ} {q : GpuPeriphery}
    (hq : gpuPeriphery ids bins c.tupleSizes = .ok q) (hbins : 2 ^ (c.rangeMaxBits + 1) - 1 ≤ bins)
    (hword : bins < 2 ^ 32) (htuple : c.tupleSizes.1 * c.tupleSizes.2 < 2 ^ 32) :
    ∃ threads, gpuBusThreads q g b = some threads ∧
      ∀ l, Interleaving threads l → ∀ hist, SameCounters q ids c hist →
        ∃ hist', l.foldlM (addCount q) hist = some hist' ∧ SameCounters q ids c' hist' ∧
          ∀ t i, (¬ ∃ bus entry, TablePlace q c bus entry t i) → hist' t i = hist t i := by
  obtain ⟨hq1, hq2, hq3, hq4, hq5, hq6⟩ := gpuPeriphery_apart hids hq
  have hf : q.Fits c := ⟨hq5 ▸ hbins, hq5 ▸ hword, hq6, htuple⟩
  obtain ⟨b', e1, e2, rows, -, -, e5, -, e7⟩ := gpu_run hg hc h honce ho hfit hp hs hcode hs1 hs2
  rw [hb] at e1
  cases e1
  obtain ⟨p1, p2, p3, -, -, -, p8⟩ := gpuPlan_inv hp
  have hge := clog_ge o.numberOfCalls
  obtain ⟨-, -, new, hnew, hxs⟩ := compileBus_ok m.bus p8 hcode' hspans
  rw [List.nil_append] at hnew
  rw [← hnew] at hxs
  rw [p1] at e2 e7 hs
  have hrow : ∀ r < o.numberOfCalls, ∃ l ms, gpuThreadCounts q g b r = some l ∧ messages[r]? = some ms ∧
      CountsSent q c l ms := by
    intro r hr
    obtain ⟨ms, f1, f2⟩ := e7 r hr
    have hrH : r < g.height := by omega
    have hfm := mapM_ok f2
    have hall := hallowed ms (List.mem_of_getElem? f1)
    have key : List.Forall₂ (fun x μ => ∃ l, gpuBusCounts q g.spans g.busCode b r x = some l ∧ CountsSent q c l [μ])
        g.interactions ms := by
      rw [List.forall₂_iff_get]
      have l1 := hfm.length_eq
      have l2 := hxs.length_eq
      refine ⟨by omega, fun i h1 h2 => ?_⟩
      have hib : i < m.bus.length := by omega
      have g1 := (List.forall₂_iff_get.1 hfm).2 i hib h2
      obtain ⟨g2, g3⟩ := (List.forall₂_iff_get.1 hxs).2 i hib h1
      have hmem := List.get_mem ms ⟨i, h2⟩
      have hal := hall _ hmem
      have hbm := List.get_mem m.bus ⟨i, hib⟩
      generalize m.bus.get ⟨i, hib⟩ = B at g1 g2 g3 hbm
      generalize ms.get ⟨i, h2⟩ = μ at g1 hal
      generalize g.interactions.get ⟨i, h1⟩ = x at g2 g3
      have hrefs : ∀ e ∈ B.mult :: B.args, ∀ r ∈ e.refs, r ∈ m.mainColumns := by
        intro e he
        obtain ⟨k, hk⟩ := List.mem_iff_getElem?.1 he
        exact (g3 k e hk).1
      have hμ : μ = (B.id, B.mult.value (columnValue m.mainColumns (rowOf g.height m.mainColumns.length b r)),
          B.args.map (AlgExpr.value (columnValue m.mainColumns (rowOf g.height m.mainColumns.length b r)))) := by
        rw [evalInteraction, evalRow_ok (rowOf_length ..) _ (hrefs _ List.mem_cons_self), mapM_of_forall _
          (fun e he => evalRow_ok (rowOf_length ..) e (hrefs e (List.mem_cons_of_mem _ he)))] at g1
        exact (Except.ok.inj g1).symm
      have harg : ∀ (k : ℕ) e, (B.mult :: B.args)[k]? = some e → gpuBusArg g.spans g.busCode b r x k =
          some (e.value (columnValue m.mainColumns (rowOf g.height m.mainColumns.length b r))).val := by
        intro k e hk
        obtain ⟨k1, k2⟩ := g3 k e hk
        exact gpuBusArg_ok hrH hs e2 k1 k2 (hfit.2 B hbm e (List.mem_of_getElem? hk))
      have hid : B.id < 2 ^ 32 := by
        have hμ1 : μ.1 = B.id := by rw [hμ]
        rcases hal with hz | ⟨hz, -⟩ | ⟨hz, -⟩ | ⟨hz, -⟩
        · omega
        · have := (hids.bitwise _ hz).2.1
          omega
        · have := hids.range.2
          omega
        · have := (hids.tuple _ hz).2.1
          omega
      obtain ⟨l, k1, k2, k3⟩ := gpuBusCounts_ok (μ := μ) (x := x) (spans := g.spans) (code := g.busCode) (b := b) (r := r)
        hq1 hf hq2 hq3 hq4 (by rw [g2, Nat.mod_eq_of_lt hid, hμ]) (by rw [harg 0 B.mult rfl, hμ])
        (fun k v hv => by
          rw [hμ] at hv
          simp only [List.getElem?_map, Option.map_eq_some_iff] at hv
          obtain ⟨e, he, rfl⟩ := hv
          exact harg (k + 1) e he) hal
      exact ⟨l, k1, k2, fun bus entry t i hpl => by rw [k3 bus entry t i hpl, totalSentNat, totalSentNat, Nat.add_zero]⟩
    obtain ⟨l, k1, k2⟩ := gpuRowCounts_ok key
    refine ⟨l.flatten, ms, ?_, f1, k2⟩
    rw [gpuThreadCounts, if_neg (by omega), k1]
    rfl
  obtain ⟨threads, t1, t2⟩ := gpuThreads_ok (q := q) (c := c) e5 hrow
    (fun r hr => by rw [gpuThreadCounts, if_pos (by omega)]) ((g.calls + 128 - 1) / 128 * 128) (by omega)
  refine ⟨threads, t1, fun l hl hist hhist => ?_⟩
  have hperm := hl.perm
  obtain ⟨hist', u1, u2, u3⟩ := addCount_fold (q := q) l (fun x hx => by
    obtain ⟨bus, entry, hpl⟩ := t2.1 x (hperm.mem_iff.1 hx)
    exact hpl.lt hf) hist
  have hmessages : ∀ x ∈ messages.flatten, AllowedMessage ids c x := by
    intro x hx
    obtain ⟨ms, hms, hx'⟩ := List.mem_flatten.1 hx
    exact hallowed ms hms x hx'
  obtain ⟨c2, v1, v2⟩ := C69_counts (p := p) hids hserve hallowed
  rw [hreplay] at v1
  cases v1
  obtain ⟨w1, w2⟩ := replay_sizes hids messages.flatten hserve hmessages hreplay
  refine ⟨hist', u1, ?_, ?_⟩
  · intro bus entry t i hpl
    have hpl := tablePlace_congr w1 w2 hpl
    have hh := hhist bus entry t i hpl
    rw [u3 t i (by rw [hh]; exact Nat.mod_lt _ (by norm_num)), hh, hperm.count_eq, t2.2 bus entry t i hpl,
      v2 bus (hpl.bus_gt hq1), Nat.mod_add_mod]
  · intro t i hno
    refine u2 t i (List.count_eq_zero.2 fun hm => hno ?_)
    exact t2.1 _ (hperm.mem_iff.1 hm)

end

/-- **C74.** Without a tuple range checker or without a bitwise lookup, the GPU panics, while the CPU does not need
them. -/
theorem C74_missing (ids : PeripheryBusIds) (h : ids.tupleRangeChecker = none ∨ ids.bitwiseLookup = none)
    (bins : ℕ) (sizes : ℕ × ℕ) : gpuPeriphery ids bins sizes = .error .assertion := by
  unfold gpuPeriphery
  rcases h with h | h
  · rw [h]
  · rw [h]
    cases ids.tupleRangeChecker <;> rfl

/-! ### A sample: that of `C69` -/

theorem lookupGen_same : SameChips lookupGen fun a rs => deviceOf (lookupGen a rs) := by
  intro a rs
  refine ⟨rfl, deviceOf_same _ ?_⟩
  have : ∀ rs : List ℕ, (rs.flatMap (lookupRow a)).length = 2 * rs.length := by
    intro rs
    induction rs with
    | nil => rfl
    | cons x t ih =>
      rw [List.flatMap_cons, List.length_append, ih, List.length_cons]
      simp [lookupRow]
      omega
  exact Dvd.intro rs.length (this rs).symm

/-- The same counters as the CPU: the table of ranges has a request of `[3, 4]` from before. -/
example : (match addGuards lookupSample ⟨[[0, 1]], 2⟩, cachedMetas [0] [[(0, 0), (1, 1)]],
      gpuPeriphery lookupIds 63 lookupChips.tupleSizes with
    | .ok (m, _), .ok metas, .ok q =>
      match executeSegment lookupStep [7] [0] [[(0, 0), (1, 1)]] metas 2 [3, 5] none with
      | .ok (_, some o) =>
        match gpuPlan (fun a rs => deviceOf (lookupGen a rs)) [0] [0] o [0] [[(0, 0), (1, 1)]] m with
        | .ok g =>
          match g.run (rowThreads 4 g.height g.substs).flatten (rowThreads 4 g.height g.specs).flatten with
          | some b =>
            match gpuBusThreads q g b with
            | some threads =>
              decide (threads.length = 128 ∧ threads.take 3 =
                [[(.range, 18), (.bitwiseRange, 774)], [(.range, 20), (.bitwiseRange, 1290)], []]) &&
              match threads.reverse.flatten.foldlM (addCount q)
                  (fun t i => if t = .range ∧ i = 18 then 1 else 0) with
              | some hist => decide (hist .range 18 = 2 ∧ hist .range 20 = 1 ∧ hist .bitwiseRange 774 = 1 ∧
                  hist .bitwiseRange 1290 = 1 ∧ hist .bitwiseXor 774 = 0)
              | none => false
            | none => false
          | none => false
        | _ => false
      | _ => false
    | _, _, _ => false) = true := by decide +kernel

end Verif
