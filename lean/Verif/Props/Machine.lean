import Verif.Proofs.Machine
import Verif.Props.Expression
import Mathlib.Data.Rat.Cast.CharZero

/-!
# C37: guards, C47: column ids, C58: block machines, C59: field conversion
-/

set_option linter.unusedSectionVars false

namespace Verif

variable {p : ℕ}

/-! ## C37 -/

/-- C37: in an active row (`is_valid = 1`) the guarded machine has the constraints and the messages of
the machine. -/
theorem C37_active {m m' : SymMachine (ZMod p) ℕ} {a a' : ColumnAllocator}
    (h : addGuards m a = .ok (m', a')) {σ : ℕ → ZMod p} (hσ : σ a.nextPolyId = 1) :
    (m'.Holds σ ↔ m.Holds σ) ∧ m'.messages σ = m.messages σ := by
  obtain ⟨m1, h1, _, h2, _⟩ := addGuards_shape m a
  rw [h1] at h
  split_ifs at h
  cases h
  refine ⟨?_, (h2 σ hσ).2⟩
  rw [← (h2 σ hσ).1]
  simp only [SymMachine.Holds, List.mem_append, List.mem_singleton, or_imp, forall_and, forall_eq,
    value_toConstraint]
  simp [makeBool, AlgExpr.value, hσ]

/-- C37: the row of zeros satisfies the guarded machine. -/
theorem C37_padding {m m' : SymMachine (ZMod p) ℕ} {a a' : ColumnAllocator}
    (h : addGuards m a = .ok (m', a')) : m'.Holds fun _ => 0 := by
  obtain ⟨m1, h1, _, _, h2, _⟩ := addGuards_shape m a
  rw [h1] at h
  split_ifs at h
  cases h
  intro e he
  rcases List.mem_append.1 he with he | he
  · exact h2 e he
  · rw [List.mem_singleton.1 he, value_toConstraint]
    simp [makeBool, AlgExpr.value]

/-- C37: in a row with `is_valid = 0` that satisfies the guarded machine, no message is sent. -/
theorem C37_inactive {m m' : SymMachine (ZMod p) ℕ} {a a' : ColumnAllocator}
    (h : addGuards m a = .ok (m', a')) {σ : ℕ → ZMod p} (hσ : σ a.nextPolyId = 0)
    (hm : m'.Holds σ) : ∀ x ∈ m'.messages σ, x.2.1 = 0 := by
  obtain ⟨m1, h1, _, _, _, h2, _⟩ := addGuards_shape m a
  rw [h1] at h
  split_ifs at h
  cases h
  intro x hx
  obtain ⟨b, hb, rfl⟩ := List.mem_map.1 hx
  exact h2 σ hσ (fun e he => hm e (List.mem_append_left _ he)) b hb

/-- C37: every row of the guarded machine is active or inactive. -/
theorem C37_boolean [Fact p.Prime] {m m' : SymMachine (ZMod p) ℕ} {a a' : ColumnAllocator}
    (h : addGuards m a = .ok (m', a')) {σ : ℕ → ZMod p} (hm : m'.Holds σ) :
    σ a.nextPolyId = 0 ∨ σ a.nextPolyId = 1 := by
  obtain ⟨m1, h1, _⟩ := addGuards_shape m a
  rw [h1] at h
  split_ifs at h
  cases h
  have := hm _ (List.mem_append_right _ (List.mem_singleton.2 rfl))
  rw [value_toConstraint] at this
  simp only [makeBool, AlgExpr.value] at this
  rcases mul_eq_zero.1 this with h | h
  · exact .inl h
  · exact .inr (by linear_combination h)

/-- C37: `is_valid` is a new column, computed as the constant 1; the bus interactions keep their bus
and payload. -/
theorem C37_column {m m' : SymMachine (ZMod p) ℕ} {a a' : ColumnAllocator}
    (h : addGuards m a = .ok (m', a')) :
    m'.derived = m.derived ++ [(a.nextPolyId, .constant 1)] ∧
    a' = { a with nextPolyId := a.nextPolyId + 1 } ∧
    m'.bus.map (fun b => (b.id, b.args)) = m.bus.map fun b => (b.id, b.args) := by
  obtain ⟨m1, h1, h2, _, _, _, h3⟩ := addGuards_shape m a
  rw [h1] at h
  split_ifs at h
  cases h
  exact ⟨h2, rfl, h3⟩

/-- C37: a machine without bus interactions, or of degree zero, can always be guarded; the only panic
is the assertion that the degree did not change. -/
theorem C37_no_panic {m : SymMachine (ZMod p) ℕ} (a : ColumnAllocator)
    (hm : m.bus = [] ∨ m.degree = 0) : ∃ r, addGuards m a = .ok r := by
  obtain ⟨m1, h1, h2, _, _, _, h3⟩ := addGuards_shape m a
  rw [h1, if_neg]
  · exact ⟨_, rfl⟩
  · rintro ⟨h4, h5, h6⟩
    rcases hm with hm | hm
    · rw [hm] at h3
      exact h5 (List.map_eq_nil_iff.1 h3)
    · exact h4 hm

/-! A sample: `x0 * x1 - 3 = 0`, with a bus of multiplicity 1 and one of multiplicity `x0`. -/

def guardSample : SymMachine (ZMod 17) ℕ where
  constraints := [.binary (.binary (.reference 0) .mul (.reference 1)) .sub (.number 3)]
  bus := [⟨1, .number 1, [.reference 0]⟩, ⟨2, .reference 0, [.reference 1]⟩]
  derived := []

/-- The constant is multiplied by `is_valid`, so is the first multiplicity, the second is forced to
be zero in inactive rows. -/
example : (addGuards guardSample ⟨[[0, 1]], 2⟩).toOption.map (fun r => decide (r.1 =
    ⟨[.binary (.binary (.reference 0) .mul (.reference 1)) .sub
        (.binary (.number 3) .mul (.reference 2)),
      .binary (.binary (.number 1) .sub (.reference 2)) .mul (.reference 0),
      .binary (.reference 2) .mul (.binary (.reference 2) .sub (.number 1))],
     [⟨1, .reference 2, [.reference 0]⟩, ⟨2, .reference 0, [.reference 1]⟩],
     [(2, .constant 1)]⟩ ∧ r.2 = ⟨[[0, 1]], 3⟩)) = some true := by decide +kernel

/-- An active row of the sample. -/
example : guardSample.Holds (fun v => ([1, 3, 1] : List (ZMod 17)).getD v 0) := by
  unfold SymMachine.Holds
  decide

/-- The zero row does not satisfy the sample before guards. -/
example : ¬ guardSample.Holds fun _ => 0 := by
  unfold SymMachine.Holds
  decide

/-- A machine that cannot be guarded: the guard would raise the degree. -/
example : addGuards (⟨[], [⟨1, .binary (.reference 0) .add (.number 1), []⟩], []⟩ :
    SymMachine (ZMod 17) ℕ) ⟨[], 1⟩ = .error .assertion := by decide +kernel

/-! ## C47 -/

section
variable {U : Type} {f : U → ZMod p} {execBus pcBus : ℕ}

/-- C47: the columns of the instructions are numbered consecutively: in particular all ids are
different, and each instruction has one id per column. -/
theorem C47_ids {is : List (InstrAir U)} {m : SymMachine (ZMod p) ℕ} {a : ColumnAllocator}
    (h : blockMachine execBus pcBus f is = .ok (m, a)) :
    a.subs.flatten = List.range a.nextPolyId ∧ a.subs.length = is.length ∧
    ∀ x ∈ is.zip a.subs, x.2.length = x.1.machine.refs.dedup.length := by
  obtain ⟨ms, h1, _⟩ := blockMachine_ok h
  obtain ⟨_, h2, _, h3, h4, _⟩ := instructionMachines_ok h1
  refine ⟨?_, h2, h4⟩
  rw [h3, List.range_eq_range', Nat.sub_zero]

/-- C47: different columns of the same or of different instructions get different ids. -/
theorem C47_disjoint {is : List (InstrAir U)} {m : SymMachine (ZMod p) ℕ} {a : ColumnAllocator}
    (h : blockMachine execBus pcBus f is = .ok (m, a)) :
    (∀ s ∈ a.subs, s.Nodup) ∧ a.subs.Pairwise List.Disjoint := by
  have := (C47_ids h).1
  have hn : a.subs.flatten.Nodup := by rw [this]; exact List.nodup_range
  rw [List.nodup_flatten] at hn
  exact hn

/-- C47: the block machine uses only ids that were given out, and an id issued later is not used. -/
theorem C47_fresh {is : List (InstrAir U)} {m : SymMachine (ZMod p) ℕ} {a : ColumnAllocator}
    (h : blockMachine execBus pcBus f is = .ok (m, a)) :
    (∀ r ∈ m.refs, a.isKnownId r ∧ ∃ s ∈ a.subs, r ∈ s) ∧
    a.issueNextPolyId.1 ∉ m.refs ∧ a.isKnownId a.issueNextPolyId.1 = false ∧
    a.issueNextPolyId.2.isKnownId a.issueNextPolyId.1 ∧
    (∀ id, a.isKnownId id → a.issueNextPolyId.2.isKnownId id) := by
  obtain ⟨ms, h1, _, _, h2⟩ := blockMachine_ok h
  obtain ⟨_, _, _, _, _, h3⟩ := instructionMachines_ok h1
  have hlt : ∀ r ∈ m.refs, r < a.nextPolyId := by
    intro r hr
    obtain ⟨x, hx, hr⟩ := (h2 r).1 hr
    exact (h3 x hx r hr).2
  refine ⟨fun r hr => ⟨by simpa [ColumnAllocator.isKnownId] using hlt r hr, ?_⟩, fun hr =>
    lt_irrefl _ (hlt _ hr), ?_, ?_, ?_⟩
  · have : r ∈ a.subs.flatten := by
      rw [(C47_ids h).1]
      exact List.mem_range.2 (hlt r hr)
    exact List.mem_flatten.1 this
  · simp [ColumnAllocator.isKnownId, ColumnAllocator.issueNextPolyId]
  · simp [ColumnAllocator.isKnownId, ColumnAllocator.issueNextPolyId]
  · intro id hid
    simp only [ColumnAllocator.isKnownId, ColumnAllocator.issueNextPolyId, decide_eq_true_eq] at *
    exact decide_eq_true (Nat.lt_succ_of_lt hid)

end

/-- C47: an allocator made from a machine issues an id that the machine does not use. -/
theorem C47_from_machine {T : Type} (m : SymMachine T ℕ) :
    (∀ r ∈ m.refs, (ColumnAllocator.fromMaxPolyId m).isKnownId r) ∧
    (ColumnAllocator.fromMaxPolyId m).issueNextPolyId.1 ∉ m.refs := by
  have h : ∀ r ∈ m.refs, r < (ColumnAllocator.fromMaxPolyId m).nextPolyId := fun r hr =>
    Nat.lt_succ_of_le ((le_foldl_max m.refs 0).2 r hr)
  exact ⟨fun r hr => by simpa [ColumnAllocator.isKnownId] using h r hr,
    fun hr => lt_irrefl _ (h _ hr)⟩

/-- C47: ids issued one after the other are different from each other and from all known ones. -/
theorem C47_issue (a : ColumnAllocator) (n : ℕ) :
    let ids := (List.range n).map fun k => ((fun a => a.issueNextPolyId.2)^[k] a).issueNextPolyId.1
    ids.Nodup ∧ ∀ id ∈ ids, a.isKnownId id = false := by
  have h : ∀ k, ((fun a => a.issueNextPolyId.2)^[k] a).nextPolyId = a.nextPolyId + k := by
    intro k
    induction k with
    | zero => rfl
    | succ k ih =>
      rw [Function.iterate_succ_apply']
      exact congrArg Nat.succ ih
  have he : ((List.range n).map fun k =>
      ((fun a => a.issueNextPolyId.2)^[k] a).issueNextPolyId.1) =
      (List.range n).map (a.nextPolyId + ·) :=
    List.map_congr_left fun k _ => h k
  intro ids
  simp only [ids, he]
  refine ⟨List.nodup_range.map fun x y hxy => by simpa using hxy, ?_⟩
  intro id hid
  obtain ⟨k, _, rfl⟩ := List.mem_map.1 hid
  simp [ColumnAllocator.isKnownId]

/-- C47: the recorded substitutions of an instruction are exactly the pairs of an original column and
its id, for the ids still used by the machine, in the order of the original columns. -/
theorem C47_substitutions {T : Type} (m : SymMachine T ℕ) (a : ColumnAllocator) :
    (apcSubs m a).length = a.subs.length ∧
    ∀ (i : ℕ) (s : List ℕ), a.subs[i]? = some s → ∃ l : List (ℕ × ℕ), (apcSubs m a)[i]? = some l ∧
      (∀ c id, (c, id) ∈ l ↔ s[c]? = some id ∧ id ∈ m.refs) ∧ l.Pairwise (fun x y => x.1 < y.1) := by
  refine ⟨by simp [apcSubs], fun i s hs => ⟨_, by simp [apcSubs, hs]; rfl, ?_, ?_⟩⟩
  · intro c id
    simp only [List.mem_map, List.mem_filter, decide_eq_true_eq, Prod.exists, Prod.mk.injEq,
      List.mem_zipIdx_iff_getElem?]
    constructor
    · rintro ⟨x, y, ⟨h1, h2⟩, rfl, rfl⟩
      exact ⟨h1, h2⟩
    · rintro ⟨h1, h2⟩
      exact ⟨id, c, ⟨h1, h2⟩, rfl, rfl⟩
  · rw [List.pairwise_map]
    refine List.Pairwise.sublist List.filter_sublist ?_
    rw [List.pairwise_iff_getElem]
    intro i j hi hj hij
    simpa using hij

/-! ## C58 -/

section
variable {U : Type} {f : U → ZMod p} {execBus pcBus : ℕ}

/-- C58: a row satisfies the block machine exactly if it is made of rows of the instructions, each
executed once (the multiplicity of the receive is -1) and with its own pc lookup; the messages are
those of the instructions, in order. -/
theorem C58_block {is : List (InstrAir U)} {m : SymMachine (ZMod p) ℕ} {a : ColumnAllocator}
    (h : blockMachine execBus pcBus f is = .ok (m, a)) (σ : ℕ → ZMod p) :
    (m.Holds σ ↔ ∀ x ∈ is.zip a.subs,
      (x.1.machine.convert f).Holds (fun c => σ (x.2.getD c 0)) ∧
      (∀ r s, ((x.1.machine.convert f).bus.filter fun b => b.id = execBus) = [r, s] →
        r.mult.value (fun c => σ (x.2.getD c 0)) = -1) ∧
      ∀ pc ∈ (x.1.machine.convert f).bus, pc.id = pcBus →
        pc.args.map (AlgExpr.value fun c => σ (x.2.getD c 0)) = x.1.pcLookupRow.map f) ∧
    m.messages σ = (is.zip a.subs).flatMap fun x =>
      (x.1.machine.convert f).messages fun c => σ (x.2.getD c 0) := by
  obtain ⟨ms, h1, h2, h3, _⟩ := blockMachine_ok h
  obtain ⟨h4, _⟩ := instructionMachines_ok h1
  have e1 : m.Holds σ ↔ ∀ x ∈ ms, x.Holds σ := by
    simp only [SymMachine.Holds, h2, List.mem_flatMap, forall_exists_index, and_imp]
    exact ⟨fun h x hx e he => h e x hx he, fun h e x hx he => h x hx e he⟩
  have e2 : m.messages σ = ms.flatMap fun x => x.messages σ := by
    simp only [SymMachine.messages, h3, List.map_flatMap]
  rw [e1, e2]
  rename_i h5 h6
  clear h1 h2 h3 h5 h6 e1 e2
  generalize is.zip a.subs = l at h4
  induction h4 with
  | nil => simp
  | cons hx _ ih =>
    obtain ⟨n, n', hx⟩ := hx
    obtain ⟨h5, h6⟩ := instructionMachine_holds hx σ
    unfold localRow at h5 h6
    simp only [List.mem_cons, forall_eq_or_imp, List.flatMap_cons, ih.1, ih.2, h5, h6]
    trivial

/-- C58: the block machine exists exactly if there is an instruction, the columns of each instruction
are numbered from zero without gaps, and each has two interactions with the execution bus and one with
the pc lookup, of the right length. -/
theorem C58_exists {is : List (InstrAir U)} :
    (∃ r, blockMachine execBus pcBus f is = .ok r) ↔ is ≠ [] ∧ ∀ i ∈ is,
      (∃ n, 0 < n ∧ ∀ k, k ∈ i.machine.refs ↔ k < n) ∧
      (i.machine.bus.filter fun b => b.id = execBus).length = 2 ∧
      ∃ pc, (i.machine.bus.filter fun b => b.id = pcBus) = [pc] ∧
        pc.args.length = i.pcLookupRow.length := by
  have key := fun i : InstrAir U =>
    instructionMachine_exists (f := f) (execBus := execBus) (pcBus := pcBus) (next := 0) (i := i)
  simp only [← key]
  constructor
  · rintro ⟨⟨m, a⟩, h⟩
    obtain ⟨ms, h1, -⟩ := blockMachine_ok h
    refine ⟨?_, fun i hi => (instructionMachines_exists.1 ⟨_, h1⟩ i hi)⟩
    rintro rfl
    cases h
  · rintro ⟨h1, h2⟩
    obtain ⟨⟨n, subs, ms⟩, hr⟩ := (instructionMachines_exists (next := 0)).2 h2
    obtain ⟨hf, hl, -⟩ := instructionMachines_ok hr
    cases ms with
    | nil =>
      have := hf.length_eq
      rw [List.length_zip, hl, Nat.min_self] at this
      exact absurd (List.eq_nil_of_length_eq_zero this) h1
    | cons m t =>
      unfold blockMachine
      rw [hr]
      exact ⟨_, rfl⟩

end

/-! A sample: two instructions with the execution bus 0 and the pc lookup 2. -/

def instrSample (op : ℤ) : InstrAir ℤ where
  machine := {
    constraints := [.binary (.reference 1) .sub (.number op)]
    bus := [⟨0, .minus (.reference 2), [.reference 0]⟩,
      ⟨0, .reference 2, [.binary (.reference 0) .add (.number 4)]⟩,
      ⟨2, .reference 2, [.reference 0, .reference 1]⟩]
    derived := [] }
  pcLookupRow := [op + 1, op]

def blockSample : Except Panic (SymMachine (ZMod 17) ℕ × ColumnAllocator) :=
  blockMachine 0 2 (Int.cast : ℤ → ZMod 17) [instrSample 3, instrSample 7]

example : blockSample.toOption.map (fun r => decide (r.2 = ⟨[[0, 1, 2], [3, 4, 5]], 6⟩ ∧
    r.1.constraints.length = 8 ∧
    r.1.bus.getD 3 ⟨0, .number 0, []⟩ = ⟨0, .minus (.reference 5), [.reference 3]⟩ ∧
    apcSubs (⟨[.reference 1, .reference 5], [], []⟩ : SymMachine ℤ ℕ) r.2 = [[(1, 1)], [(2, 5)]])) = some true := by
  decide +kernel

/-- A row of the block. -/
example : ∀ m a, blockSample = .ok (m, a) →
    m.Holds fun c => ([4, 3, 1, 8, 7, 1] : List (ZMod 17)).getD c 0 := by
  intro m a h
  have : (blockSample.toOption.map fun r => decide (∀ e ∈ r.1.constraints,
      e.value (fun c => ([4, 3, 1, 8, 7, 1] : List (ZMod 17)).getD c 0) = 0)) = some true := by
    decide +kernel
  rw [h] at this
  simpa [Except.toOption, SymMachine.Holds] using this

/-- Without the pc lookup there is no block machine. -/
example : blockMachine 0 5 (Int.cast : ℤ → ZMod 17) [instrSample 3] = .error .assertion := by
  decide +kernel

section
variable {U : Type} {f : U → ZMod p} {execBus pcBus : ℕ}

theorem instructionMachine_derived {next next' : ℕ} {subs : List ℕ} {i : InstrAir U}
    {m : SymMachine (ZMod p) ℕ} (h : instructionMachine execBus pcBus f next i = .ok (next', subs, m)) :
    m.derived = (i.machine.convert f).derived := by
  unfold instructionMachine at h
  simp only [bind, Except.bind, pure, Except.pure] at h
  cases hg : globalizeReferences (i.machine.convert f) next with
  | error x => rw [hg] at h; cases h
  | ok r =>
    obtain ⟨n, sb, mm⟩ := r
    rw [hg] at h
    have hd : mm.derived = (i.machine.convert f).derived := by
      unfold globalizeReferences at hg
      simp only at hg
      split at hg
      · cases hg
      · split at hg
        · cases hg
        · cases hg; rfl
    simp only at h
    split at h
    · cases hr : execReceive mm execBus with
      | error x => rw [hr] at h; cases h
      | ok r =>
        rw [hr] at h
        simp only at h
        split at h
        · cases h
        · cases h
          exact hd
    · cases h

theorem instructionMachines_derived : ∀ {is : List (InstrAir U)} {next next' : ℕ} {subs : List (List ℕ)}
    {ms : List (SymMachine (ZMod p) ℕ)},
    instructionMachines execBus pcBus f next is = .ok (next', subs, ms) →
    ms.flatMap (·.derived) = is.flatMap fun i => (i.machine.convert f).derived
  | [], next, next', subs, ms, h => by
    cases h
    rfl
  | i :: t, next, next', subs, ms, h => by
    rw [instructionMachines] at h
    cases h1 : instructionMachine execBus pcBus f next i with
    | error x => rw [h1] at h; cases h
    | ok r =>
      obtain ⟨nx, sb, mm⟩ := r
      rw [h1] at h
      simp only [bind, Except.bind] at h
      cases h2 : instructionMachines execBus pcBus f nx t with
      | error x => rw [h2] at h; cases h
      | ok r =>
        obtain ⟨nx', sbs, mms⟩ := r
        rw [h2] at h
        cases h
        rw [List.flatMap_cons, List.flatMap_cons, instructionMachines_derived h2,
          instructionMachine_derived h1]

/-- C58: the block machine computes the columns that the instructions compute. Their ids are not
shifted (`globalize_references` does not visit computed columns), so this is right only for
instructions without computed columns. -/
theorem C58_derived {is : List (InstrAir U)} {m : SymMachine (ZMod p) ℕ} {a : ColumnAllocator}
    (h : blockMachine execBus pcBus f is = .ok (m, a)) :
    m.derived = is.flatMap fun i => (i.machine.convert f).derived := by
  unfold blockMachine at h
  cases h1 : instructionMachines execBus pcBus f 0 is with
  | error x => rw [h1] at h; cases h
  | ok r =>
    obtain ⟨n, subs, ms⟩ := r
    rw [h1] at h
    simp only [bind, Except.bind] at h
    cases ms with
    | nil => cases h
    | cons x t =>
      cases h
      rw [← instructionMachines_derived h1, List.flatMap_cons]
      clear h1
      induction t generalizing x with
      | nil => simp
      | cons y t ih =>
        rw [List.foldl_cons, ih, List.flatMap_cons]
        simp [SymMachine.concatenate]

end

/-! ## C59 -/

/-- C59: converting the numbers of an expression or of a machine by a homomorphism (such as the one
between two representations of the same field) keeps its meaning. -/
theorem C59_convert {F G R : Type} [CommRing F] [CommRing G] (f : F →+* G) (σ : R → F)
    (m : SymMachine F R) :
    (m.Holds σ → (m.convert f).Holds (f ∘ σ)) ∧
    (Function.Injective f → (m.convert f).Holds (f ∘ σ) → m.Holds σ) ∧
    (m.convert f).messages (f ∘ σ) =
      (m.messages σ).map fun x => (x.1, f x.2.1, x.2.2.map f) := by
  refine ⟨?_, ?_, ?_⟩
  · intro h e he
    obtain ⟨e', he', rfl⟩ := List.mem_map.1 he
    rw [value_convert, h e' he', map_zero]
  · intro hf h e he
    have := h _ (List.mem_map.2 ⟨e, he, rfl⟩)
    rw [value_convert] at this
    exact hf (this.trans (map_zero f).symm)
  · simp only [SymMachine.messages, SymMachine.convert, List.map_map]
    refine List.map_congr_left fun b _ => ?_
    simp only [Function.comp_apply, SymBus.message, value_convert, List.map_map]
    congr 2
    exact List.map_congr_left fun e _ => value_convert f σ e

/-- C59: conversion between fields keeps the derived columns and converts their values. -/
theorem C59_convert_derived {F G R : Type} [Field F] [Field G] [DecidableEq F] [DecidableEq G]
    (f : F →+* G) (σ : R → F) (m : SymMachine F R) :
    ((m.convert f).derived.map fun x => (x.1, x.2.value (f ∘ σ))) =
      m.derived.map fun x => (x.1, f (x.2.value σ)) := by
  simp only [SymMachine.convert, List.map_map]
  refine List.map_congr_left fun x _ => ?_
  obtain ⟨r, d⟩ := x
  cases d with
  | constant c => rfl
  | quotientOrZero e1 e2 =>
    simp only [Function.comp_apply, SymMethod.value, value_convert, map_eq_zero]
    split
    · rw [map_zero]
    · rw [map_div₀]

/-- An injective homomorphism between two different types, and one that is not injective. -/
example : Function.Injective (Int.castRingHom ℚ) := Int.cast_injective
example : (Int.castRingHom (ZMod 17)) 20 = (3 : ZMod 17) := by decide

end Verif
