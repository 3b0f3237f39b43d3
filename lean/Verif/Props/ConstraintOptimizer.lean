import Verif.Proofs.SimplifySystem
import Verif.Props.Reachability
import Verif.Props.Memory

/-!
# Properties C48–C51, C60 and C61: the passes of the constraint optimizer

`bus` says which bus interactions are admissible, `f` which buses are stateful. The system a pass is
applied to is any system with any history of changes through its index.
-/

namespace Verif

open GExpr

set_option linter.unusedSectionVars false

variable {p : ℕ} [Fact p.Prime] {V : Type} [LinearOrder V]

deriving instance DecidableEq for ComputationMethod
deriving instance DecidableEq for DerivedVariable
deriving instance DecidableEq for ConstraintSystem

/-! ## C48: free variables -/

/-- C48: every solution is kept, with its messages, and the solver stays valid for it. -/
theorem C48_solutions_kept {bus : Bus p} {h : Handler p} (hs : h.Sound bus) (f : ZMod p → Bool)
    (s : ConstraintSystem p V) (ops : List (IndexedOp p V)) (A : (V → ZMod p) → Prop)
    (solver solver' : Solver p V) (hm : solver.MadeFor bus h A) (s' : ConstraintSystem p V)
    (hr : removeFree h f (indexedHistory s ops) solver = .ok (s', solver')) :
    solver'.MadeFor bus h A ∧ s'.derived = (indexedHistory s ops).sys.derived ∧
    ∀ σ, s'.messages f σ = (indexedHistory s ops).sys.messages f σ ∧
      ((indexedHistory s ops).sys.Satisfied bus σ → s'.Satisfied bus σ) := by
  obtain ⟨delete, -, h2, h3, rfl⟩ := removeFree_ok hr
  refine ⟨(hm.run hs (op := .retain _) trivial h2 (fun _ _ => trivial)).1, rfl, fun σ => ⟨?_, ?_⟩⟩
  · exact messages_filter_stateful σ h3 fun b _ id hid hf => by simp [hid, hf]
  · exact fun hσ => satisfied_filter hσ _ _ _

/-- C48: every solution of what is left extends to a solution of the whole system that sends the same
messages, provided that the bus interactions that were dropped are admissible for some value of the
variable through which they were dropped. No assumption is made on dropped algebraic constraints. -/
theorem C48_projection (bus : Bus p) (h : Handler p) (f : ZMod p → Bool)
    (s : ConstraintSystem p V) (ops : List (IndexedOp p V)) (hw : (indexedHistory s ops).sys.WF)
    (solver solver' : Solver p V) (s' : ConstraintSystem p V)
    (hr : removeFree h f (indexedHistory s ops) solver = .ok (s', solver'))
    (hbus : ∀ b ∈ (indexedHistory s ops).sys.bus, b ∉ s'.bus → ∀ x, (∃ e ∈ b.fields, e.Occurs x) →
      (∃ g, b.payload.filter (fun f => f.tryToNumber.isNone) = [g]) →
      (∀ e ∈ b.payload, e.degreeOf x ≤ 1) → ¬ s'.Mentions x → FreeThrough bus b x)
    (σ : V → ZMod p) (hσ : s'.Satisfied bus σ) :
    ∃ τ, (∀ v, s'.Mentions v → τ v = σ v) ∧ (indexedHistory s ops).sys.Satisfied bus τ ∧
      (indexedHistory s ops).sys.messages f τ = s'.messages f σ := by
  obtain ⟨τ, h1, h2⟩ := removeFree_projection (Indexed.inv_history s ops) hw hr hbus hσ
  refine ⟨τ, h1, h2, ?_⟩
  rw [← messages_congr h1]
  obtain ⟨delete, -, -, h3, rfl⟩ := removeFree_ok hr
  exact (messages_filter_stateful τ h3 fun b _ id hid hf => by simp [hid, hf]).symm

/-- C48: the bus interactions with a field `k * x + g` for a constant `k ≠ 0` qualify, as soon as the
table has an entry for the known fields. -/
theorem C48_linear_field (bus : Bus p) (b : BusInteraction (GExpr p V)) (x : V) (k : ZMod p)
    (hk : k ≠ 0) (g : GExpr p V) (hm : ¬ b.multiplicity.Occurs x) (hb : ¬ b.busId.Occurs x)
    (ho : ∀ e ∈ b.payload, e = g ∨ e.tryToNumber.isSome)
    (hg : ∃ g' : GExpr p V, ¬ g'.Occurs x ∧ ∀ τ : V → ZMod p, g.eval τ = k * τ x + g'.eval τ)
    (hacc : ∀ τ : V → ZMod p, ∃ a, bus ⟨b.busId.eval τ, b.multiplicity.eval τ,
      b.payload.map fun e => if e = g then a else e.eval τ⟩) :
    FreeThrough bus b x := by
  obtain ⟨g', h1, h2⟩ := hg
  refine freeThrough_of_field hk hm hb ho (fun τ t => ?_) hacc
  have h3 : ∀ t, g'.eval (Function.update τ x t) = g'.eval τ := fun t => by
    apply eval_congr
    intro v hv
    rw [Function.update_of_ne]
    rintro rfl
    exact h1 (mem_vars_iff_occurs.1 hv)
  rw [h2, h2, h3, h3]
  simp

/-! ### Concrete instances -/

/-- `2 * x1 = x0`, `x2 * (x2 - x0) = 0`, and `x3` looked up in table 7. Bus 1 is stateful. -/
def freeSample : ConstraintSystem 17 ℕ :=
  ⟨[scale 2 (var 1) - var 0, var 2 * (var 2 - var 0)],
   [⟨const 1, const 1, [var 0]⟩, ⟨const 7, const 1, [var 3 + var 0, const 8]⟩], []⟩

/-- The table 7 are the bytes (here: up to 10) with a size. -/
def freeSampleBus : Bus 17 := fun b =>
  b.busId = 7 → b.payload = [3, 8] ∨ b.payload = [4, 8]

example : (removeFree defaultHandler (fun b => b = 1) (indexedHistory freeSample [])
    Solver.new).toOption.map Prod.fst = some ⟨[], [⟨const 1, const 1, [var 0]⟩], []⟩ := by
  decide +kernel

/-- The lookup that is dropped is of the form of `C48_linear_field`. -/
example : FreeThrough freeSampleBus ⟨const 7, const 1, [var 3 + var 0, const 8]⟩ (3 : ℕ) := by
  refine C48_linear_field _ _ _ 1 (by decide) (var 3 + var 0)
    (by rw [← mem_vars_iff_occurs]; decide +kernel) (by rw [← mem_vars_iff_occurs]; decide +kernel)
    ?_ ⟨var 0, by rw [← mem_vars_iff_occurs]; decide +kernel, fun τ => ?_⟩ fun τ => ⟨3, ?_⟩
  · intro e he
    simp only [List.mem_cons, List.not_mem_nil, or_false] at he
    rcases he with rfl | rfl
    · exact .inl rfl
    · exact .inr rfl
  · rw [show (var 3 + var 0 : GExpr 17 ℕ) = add (var 3) (var 0) from rfl, eval_add, eval_var, eval_var,
      one_mul]
  · intro _
    left
    rw [List.map_cons, if_pos rfl, List.map_cons, if_neg (by decide), eval_const]
    rfl

/-- `x0 * (x0 - 1) = 0` and the product `x0 * x1` looked up in table 7. -/
def freeCounterexample : ConstraintSystem 17 ℕ :=
  ⟨[var 0 * (var 0 - const 1)],
   [⟨const 7, const 1, [var 0 * var 1, const 8]⟩], []⟩

/-- C48 is false without the assumption on dropped bus interactions: `x0 * x1` is of degree one in
`x1`, so the lookup is dropped, but if `x0 = 0` there is no value of `x1` for it. -/
theorem C48_bus_counterexample :
    (∃ solver', removeFree defaultHandler (fun _ => false) (indexedHistory freeCounterexample [])
      Solver.new = .ok (⟨[var 0 * (var 0 - const 1)], [], []⟩, solver')) ∧
    (∃ σ, freeCounterexample.Satisfied freeSampleBus σ) ∧
    ∃ σ, (⟨[var 0 * (var 0 - const 1)], [], []⟩ : ConstraintSystem 17 ℕ).Satisfied
        freeSampleBus σ ∧
      ¬ ∃ τ : ℕ → ZMod 17, τ 0 = σ 0 ∧ freeCounterexample.Satisfied freeSampleBus τ := by
  refine ⟨?_, ⟨fun v => if v = 0 then 1 else 3, ?_⟩, fun _ => 0, ?_, ?_⟩
  · have h : (removeFree defaultHandler (fun _ => false) (indexedHistory freeCounterexample [])
        Solver.new).toOption.map Prod.fst = some ⟨[var 0 * (var 0 - const 1)], [], []⟩ := by
      decide +kernel
    cases h1 : removeFree defaultHandler (fun _ => false) (indexedHistory freeCounterexample [])
        Solver.new with
    | error e => rw [h1] at h; cases h
    | ok r =>
      rw [h1] at h
      simp only [Except.toOption, Option.map_some, Option.some.injEq] at h
      exact ⟨r.2, by rw [← h]⟩
  · refine ⟨by decide +kernel, ?_⟩
    intro b hb
    rw [List.mem_singleton.1 hb]
    intro _
    left
    decide +kernel
  · exact ⟨by decide +kernel, by simp⟩
  · rintro ⟨τ, h0, hτ⟩
    have h1 := hτ.bus ⟨const 7, const 1, [var 0 * var 1, const 8]⟩ (by simp [freeCounterexample])
      (by simp [BusInteraction.evalAt, eval_const])
    have h2 : (var 0 * var 1 : GExpr 17 ℕ).eval τ = 0 := by
      rw [show (var 0 * var 1 : GExpr 17 ℕ) = mul (var 0) (var 1) from rfl, eval_mul, eval_var, h0,
        zero_mul]
    simp only [BusInteraction.evalAt, List.map_cons, h2] at h1
    rcases h1 with h1 | h1
    · exact absurd (List.cons.inj h1).1 (by decide)
    · exact absurd (List.cons.inj h1).1 (by decide)

/-! ## C49: disconnected columns -/

/-- C49: every solution is kept, with its messages, and the solver stays valid for it. -/
theorem C49_solutions_kept {bus : Bus p} {h : Handler p} (hs : h.Sound bus) (f : ZMod p → Bool)
    (s : ConstraintSystem p V) (ops : List (IndexedOp p V)) (ord : SetOrder V) (fuel : ℕ)
    (A : (V → ZMod p) → Prop)
    (solver solver' : Solver p V) (hm : solver.MadeFor bus h A) (s' : ConstraintSystem p V)
    (hr : removeDisconnected h f ord fuel (indexedHistory s ops) solver = .ok (s', solver')) :
    solver'.MadeFor bus h A ∧ s'.derived = (indexedHistory s ops).sys.derived ∧
    ∀ σ, s'.messages f σ = (indexedHistory s ops).sys.messages f σ ∧
      ((indexedHistory s ops).sys.Satisfied bus σ → s'.Satisfied bus σ) := by
  obtain ⟨keep, -, h2, h3, rfl⟩ := removeDisconnected_ok (Indexed.inv_history s ops) hr
  refine ⟨(hm.run hs (op := .retain _) trivial h2 (fun _ _ => trivial)).1, rfl, fun σ => ⟨?_, ?_⟩⟩
  · exact messages_filter_stateful σ h3 fun b _ id hid hf => by simp [hid, hf]
  · exact fun hσ => satisfied_filter hσ _ _ _

/-- C49: if the dropped part is satisfied by `τ`, every solution `σ` of the kept part extends to a
solution of the whole system with the same messages: a variable that is not mentioned in the kept
part may have to take its value from `τ`. -/
theorem C49_projection (bus : Bus p) (h : Handler p) (f : ZMod p → Bool)
    (s : ConstraintSystem p V) (ops : List (IndexedOp p V)) (ord : SetOrder V) (fuel : ℕ)
    (solver solver' : Solver p V) (s' : ConstraintSystem p V)
    (hr : removeDisconnected h f ord fuel (indexedHistory s ops) solver = .ok (s', solver'))
    (σ τ : V → ZMod p) (hσ : s'.Satisfied bus σ)
    (hτ : ∀ c : ConstraintRef p V, c.In (indexedHistory s ops).sys → ¬ c.In s' → c.Holds bus τ) :
    ∃ ρ, (∀ v, s'.Mentions v → ρ v = σ v) ∧ (∀ v, ¬ s'.Mentions v → ρ v = σ v ∨ ρ v = τ v) ∧
      (indexedHistory s ops).sys.Satisfied bus ρ ∧
      (indexedHistory s ops).sys.messages f ρ = s'.messages f σ := by
  obtain ⟨ρ, h1, h2, h3⟩ := removeDisconnected_projection (Indexed.inv_history s ops) hr hσ hτ
  refine ⟨ρ, h1, h2, h3, ?_⟩
  rw [← messages_congr h1]
  obtain ⟨keep, -, -, h3, rfl⟩ := removeDisconnected_ok (Indexed.inv_history s ops) hr
  exact (messages_filter_stateful ρ h3 fun b _ id hid hf => by simp [hid, hf]).symm

/-- C49: what is kept are exactly the stateful bus interactions and the constraints with a variable
that is connected to one. -/
theorem C49_kept_part (h : Handler p) (f : ZMod p → Bool)
    (s : ConstraintSystem p V) (ops : List (IndexedOp p V)) (ord : SetOrder V) (fuel : ℕ)
    (solver solver' : Solver p V) (s' : ConstraintSystem p V)
    (hr : removeDisconnected h f ord fuel (indexedHistory s ops) solver = .ok (s', solver'))
    (c : ConstraintRef p V) :
    c.In s' ↔ c.In (indexedHistory s ops).sys ∧
      ((∃ b id, c = .bus b ∧ b.busId.tryToNumber = some id ∧ f id = true) ∨
      ∃ v, c.Mentions v ∧ Reachable (indexedHistory s ops).sys
        (fun v => ∃ b ∈ (indexedHistory s ops).sys.bus, ∃ id, b.busId.tryToNumber = some id ∧
          f id = true ∧ ∃ e ∈ b.fields, e.Occurs v) (fun _ => False) v) := by
  obtain ⟨keep, h1, -, h3, rfl⟩ := removeDisconnected_ok (Indexed.inv_history s ops) hr
  cases c with
  | alg e =>
    simp only [ConstraintRef.In, List.mem_filter, List.any_eq_true, decide_eq_true_eq, h1,
      mem_vars_iff_occurs, ConstraintRef.Mentions]
    constructor
    · rintro ⟨h4, v, h5, h6⟩
      exact ⟨h4, .inr ⟨v, h5, h6⟩⟩
    · rintro ⟨h4, ⟨b, id, h5, -⟩ | ⟨v, h5, h6⟩⟩
      · cases h5
      · exact ⟨h4, v, h5, h6⟩
  | bus b =>
    simp only [ConstraintRef.In, List.mem_filter, Bool.or_eq_true, List.any_eq_true,
      decide_eq_true_eq, h1, mem_busVars, ConstraintRef.Mentions]
    constructor
    · rintro ⟨h4, h5 | ⟨v, h5, h6⟩⟩
      · obtain ⟨id, hid⟩ := h3 b h4
        rw [hid] at h5
        exact ⟨h4, .inl ⟨b, id, rfl, hid, h5⟩⟩
      · exact ⟨h4, .inr ⟨v, h5, h6⟩⟩
    · rintro ⟨h4, ⟨b', id, h5, h6, h7⟩ | ⟨v, h5, h6⟩⟩
      · cases h5
        refine ⟨h4, .inl ?_⟩
        rw [h6]
        exact h7
      · exact ⟨h4, .inr ⟨v, h5, h6⟩⟩

/-- `x0` is sent, `x1` is connected to it; `x2 * (x2 - x3) = 0` is not. -/
def disconnectedSample : ConstraintSystem 17 ℕ :=
  ⟨[var 0 - var 1, var 2 * (var 2 - var 3)],
   [⟨const 1, const 1, [var 0]⟩, ⟨const 7, const 1, [var 3, const 8]⟩,
    ⟨const 7, const 1, [var 1, const 8]⟩], []⟩

example : (removeDisconnected defaultHandler (fun b => b = 1) ⟨id, fun l => .refl l⟩ 9
    (indexedHistory disconnectedSample []) Solver.new).toOption.map Prod.fst =
    some ⟨[var 0 - var 1], [⟨const 1, const 1, [var 0]⟩, ⟨const 7, const 1, [var 1, const 8]⟩], []⟩ := by
  decide +kernel

/-- The dropped part is satisfiable. -/
example : ∀ c : ConstraintRef 17 ℕ, c.In disconnectedSample →
    ¬ c.In ⟨[var 0 - var 1], [⟨const 1, const 1, [var 0]⟩, ⟨const 7, const 1, [var 1, const 8]⟩], []⟩ →
    c.Holds freeSampleBus (fun _ => 3) := by
  intro c hc hn
  cases c with
  | alg e =>
    simp only [ConstraintRef.In, disconnectedSample, List.mem_cons, List.not_mem_nil, or_false] at hc hn
    rcases hc with rfl | rfl
    · exact absurd rfl hn
    · show eval _ _ = 0
      decide +kernel
  | bus b =>
    simp only [ConstraintRef.In, disconnectedSample, List.mem_cons, List.not_mem_nil, or_false] at hc hn
    rcases hc with rfl | rfl | rfl
    · exact absurd (.inl rfl) hn
    · intro _
      left
      decide +kernel
    · exact absurd (.inr rfl) hn

/-! ## C50: trivial simplifications -/

/-- C50: removing the constraints `0 = 0` and the bus interactions with multiplicity `0` keeps the
solutions and the messages, if interactions with multiplicity zero are always admissible. -/
theorem C50_trivial (bus : Bus p) (h0 : ∀ b, b.multiplicity = 0 → bus b) (f : ZMod p → Bool)
    (s : ConstraintSystem p V) (σ : V → ZMod p) :
    ((removeTrivial s).Satisfied bus σ ↔ s.Satisfied bus σ) ∧
    (removeTrivial s).messages f σ = s.messages f σ :=
  ⟨removeTrivial_satisfied h0 s σ, removeTrivial_messages f s σ⟩

/-- C50: removing repeated stateless bus interactions keeps the solutions and the messages. -/
theorem C50_equal_bus (bus : Bus p) (f : ZMod p → Bool) (s : ConstraintSystem p V)
    (σ : V → ZMod p) :
    ((removeEqualBus f s).Satisfied bus σ ↔ s.Satisfied bus σ) ∧
    (removeEqualBus f s).messages f σ = s.messages f σ :=
  ⟨removeEqualBus_satisfied f bus s σ, removeEqualBus_messages f s σ⟩

/-- C50: removing duplicate factors and constraints that contain all factors of another one keeps the
solutions, and changes nothing but the algebraic constraints. -/
theorem C50_redundant (s s' : ConstraintSystem p V) (hw : s.WF) (h : removeRedundant s = .ok s') :
    s'.bus = s.bus ∧ s'.derived = s.derived ∧
    ∀ (bus : Bus p) (σ : V → ZMod p), s'.Satisfied bus σ ↔ s.Satisfied bus σ :=
  (removeRedundant_spec h hw).2

/-- C50: without a constraint that is a constant other than zero (the solver finds those), it does not
panic. -/
theorem C50_redundant_no_panic (s : ConstraintSystem p V) (hw : s.WF)
    (hn : ∀ e ∈ s.algebraic, ∀ c, e = const c → c = 0) : ∃ s', removeRedundant s = .ok s' :=
  removeRedundant_total hw hn

/-- C50: the derived variables that are kept are exactly those that the system mentions, with their
computation. -/
theorem C50_derived (s : ConstraintSystem p V) (d : DerivedVariable p V) :
    (removeUnreferencedDerived s).algebraic = s.algebraic ∧
    (removeUnreferencedDerived s).bus = s.bus ∧
    (d ∈ (removeUnreferencedDerived s).derived ↔ d ∈ s.derived ∧ s.Mentions d.column) := by
  refine ⟨rfl, rfl, ?_⟩
  unfold removeUnreferencedDerived
  rw [List.mem_filter, decide_eq_true_iff, mentions_iff]
  rfl

theorem wf_sublist {s : ConstraintSystem p V} (hw : s.WF) {a : List (GExpr p V)}
    {b : List (BusInteraction (GExpr p V))} (ha : ∀ e ∈ a, e ∈ s.algebraic) (hb : ∀ x ∈ b, x ∈ s.bus)
    (d : List (DerivedVariable p V)) : (⟨a, b, d⟩ : ConstraintSystem p V).WF :=
  ⟨fun e he => hw.1 e (ha e he), fun x hx => hw.2 x (hb x hx)⟩

/-- C50: all four together keep the solutions and the messages. -/
theorem C50_trivial_simplifications (bus : Bus p) (h0 : ∀ b, b.multiplicity = 0 → bus b)
    (f : ZMod p → Bool) (s s' : ConstraintSystem p V) (hw : s.WF)
    (h : trivialSimplifications f s = .ok s') (σ : V → ZMod p) :
    s'.WF ∧ (s'.Satisfied bus σ ↔ s.Satisfied bus σ) ∧ s'.messages f σ = s.messages f σ := by
  unfold trivialSimplifications at h
  simp only at h
  rw [Except.bind_ok_iff] at h
  obtain ⟨s1, h1, h⟩ := h
  cases h
  have hw0 : (removeEqualBus f (removeTrivial s)).WF :=
    wf_sublist hw (fun e he => (List.mem_filter.1 he).1)
      (fun x hx => (List.mem_filter.1 ((retainUnseen_sublist f _ _).subset hx)).1) _
  obtain ⟨h2, h3, -, h4⟩ := removeRedundant_spec h1 hw0
  refine ⟨h2, ?_, ?_⟩
  · have : (removeUnreferencedDerived s1).Satisfied bus σ ↔ s1.Satisfied bus σ :=
      ⟨fun h => ⟨h.1, h.2⟩, fun h => ⟨h.1, h.2⟩⟩
    rw [this, h4, (C50_equal_bus bus f _ σ).1, (C50_trivial bus h0 f s σ).1]
  · have : (removeUnreferencedDerived s1).messages f σ =
        (removeEqualBus f (removeTrivial s)).messages f σ := by
      unfold ConstraintSystem.messages
      rw [show (removeUnreferencedDerived s1).bus = s1.bus from rfl, h3]
    rw [this, (C50_equal_bus bus f _ σ).2, (C50_trivial bus h0 f s σ).2]

/-- C50: after them, no trivial constraint is left among those of the system before. -/
theorem C50_trivial_removed (s : ConstraintSystem p V) :
    (∀ e ∈ (removeTrivial s).algebraic, e ≠ const 0) ∧
    ∀ b ∈ (removeTrivial s).bus, b.multiplicity ≠ const 0 := by
  constructor
  · intro e he h
    have := (List.mem_filter.1 he).2
    rw [h] at this
    revert this
    simp [GExpr.isZero, const, GExpr.tryToKnown]
  · intro b hb h
    have := (List.mem_filter.1 hb).2
    rw [h] at this
    revert this
    simp [GExpr.isZero, const, GExpr.tryToKnown]

/-- Repeated factors, multiples, equal constraints, a trivial one, repeated lookups. -/
def redundantSample : ConstraintSystem 17 ℕ :=
  ⟨[var 0 * var 1, var 0 * var 0 * var 1, var 2, var 2 * var 1, scale 3 (var 2), const 0],
   [⟨const 7, const 1, [var 0]⟩, ⟨const 7, const 1, [var 0]⟩, ⟨const 1, const 1, [var 0]⟩,
    ⟨const 1, const 1, [var 0]⟩, ⟨const 7, const 0, [var 5]⟩],
   [⟨5, .quotientOrZero (var 0) (var 1)⟩, ⟨1, .quotientOrZero (var 0) (var 1)⟩]⟩

example : trivialSimplifications (fun b => b = 1) redundantSample =
    .ok ⟨[var 0 * var 1, var 2],
      [⟨const 7, const 1, [var 0]⟩, ⟨const 1, const 1, [var 0]⟩, ⟨const 1, const 1, [var 0]⟩],
      [⟨1, .quotientOrZero (var 0) (var 1)⟩]⟩ := by decide +kernel

/-! ## C51: exhaustive search -/

/-- C51: whatever the range constraints are, every solution of the simplified system is a solution of
the original one that sends the same messages. -/
theorem C51_sound (s : ConstraintSystem p V) (ops : List (IndexedOp p V))
    (rc : V → RangeConstraint p) (s' : ConstraintSystem p V)
    (h : simplifyExhaustive (indexedHistory s ops) rc = .ok s') (bus : Bus p) (f : ZMod p → Bool)
    (σ : V → ZMod p) (hσ : s'.Satisfied bus σ) :
    (indexedHistory s ops).sys.Satisfied bus σ ∧
    s'.messages f σ = (indexedHistory s ops).sys.messages f σ :=
  simplifyExhaustive_sound h f hσ

/-- C51: every solution of the original system within the range constraints is a solution of the
simplified system. -/
theorem C51_complete (s : ConstraintSystem p V) (ops : List (IndexedOp p V))
    (hw : (indexedHistory s ops).sys.WF) (rc : V → RangeConstraint p) (s' : ConstraintSystem p V)
    (h : simplifyExhaustive (indexedHistory s ops) rc = .ok s') (bus : Bus p)
    (σ : V → ZMod p) (hσ : (indexedHistory s ops).sys.Satisfied bus σ)
    (hr : ∀ v, (rc v).allowsValue (σ v) = true) : s'.WF ∧ s'.Satisfied bus σ :=
  ⟨simplifyExhaustive_wf (Indexed.inv_history s ops) hw h,
   simplifyExhaustive_complete (Indexed.inv_history s ops) hw h hσ fun v =>
    (RangeConstraint.allowsValue_iff _ _).1 (hr v)⟩

/-- Two booleans that are not both one. -/
def exhaustiveSample : ConstraintSystem 17 ℕ :=
  ⟨[var 0 * (var 0 - const 1), var 1 * (var 1 - const 1), var 0 * var 1],
   [⟨const 7, const 1, [const 4 + scale 3 (var 0 * var 1)]⟩], []⟩

/-- The range constraints of the sample. -/
def exhaustiveSampleRc (v : ℕ) : RangeConstraint 17 :=
  if v < 2 then RangeConstraint.fromRange 0 1 else RangeConstraint.unconstrained

theorem varSet_eq {e : GExpr 17 ℕ} (l : List ℕ) (hl : l.SortedLT) (h : e.vars.toFinset = l.toFinset) :
    varSet e = l := by
  unfold varSet
  rw [btreeSet_eq_sort, h]
  exact (List.toFinset_sort (r := (· ≤ ·)) hl.nodup).2 hl.sortedLE.pairwise

/-- The field `4 + 3 * x0 * x1` is replaced by `4`. -/
example : simplifyExhaustive (indexedHistory exhaustiveSample []) exhaustiveSampleRc =
    .ok ⟨[var 0 * (var 0 - const 1), var 1 * (var 1 - const 1), var 0 * var 1,
        (const 4 + scale 3 (var 0 * var 1)) - const 4],
      [⟨const 7, const 1, [const 4]⟩], []⟩ := by
  have h : bruteForceCandidates (indexedHistory exhaustiveSample []).sys exhaustiveSampleRc =
      [[0], [1], [0, 1]] := by
    unfold bruteForceCandidates
    have h1 : (((indexedHistory exhaustiveSample []).sys.algebraic ++
        (indexedHistory exhaustiveSample []).sys.bus.flatMap fun b => b.fields).map varSet) =
        [[0], [1], [0, 1], [], [], [0, 1]] := by
      simp only [indexedHistory, exhaustiveSample, List.foldl_nil, Indexed.ofSystem, BusInteraction.fields,
        List.flatMap_cons, List.flatMap_nil, List.append_nil, List.cons_append, List.nil_append,
        List.map_cons, List.map_nil]
      rw [varSet_eq [0] (by decide) (by decide +kernel), varSet_eq [1] (by decide) (by decide +kernel),
        varSet_eq [0, 1] (by decide) (by decide +kernel), varSet_eq [] (by decide) (by decide +kernel),
        varSet_eq [] (by decide) (by decide +kernel), varSet_eq [0, 1] (by decide) (by decide +kernel)]
    rw [h1]
    decide +kernel
  unfold simplifyExhaustive
  rw [h]
  decide +kernel

example : exhaustiveSample.Satisfied (fun _ => True) (fun v => if v = 0 then 1 else 0) :=
  ⟨by decide +kernel, by simp⟩

/-! ## C60: the results of the solver -/

/-- C60: every solution the solver was made for satisfies the reported assignments; if it solves the
system, then it solves the result, with the same messages. The solver stays valid for it. -/
theorem C60_complete {bus : Bus p} {h : Handler p} (hs : h.Sound bus) (f : ZMod p → Bool)
    (s : ConstraintSystem p V) (ops : List (IndexedOp p V)) (hw : (indexedHistory s ops).sys.WF)
    (ch : Choices p V) (A : (V → ZMod p) → Prop) (solver solver' : Solver p V)
    (hm : solver.MadeFor bus h A) (s' : ConstraintSystem p V) (l : List (V × GExpr p V))
    (hr : solverBased h ch (indexedHistory s ops) solver = .ok (s', l, solver')) :
    s'.WF ∧ solver'.MadeFor bus h A ∧ ∀ σ, A σ → (∀ x ∈ l, σ x.1 = x.2.eval σ) ∧
      ((indexedHistory s ops).sys.Satisfied bus σ →
        s'.Satisfied bus σ ∧ s'.messages f σ = (indexedHistory s ops).sys.messages f σ) :=
  solverBased_complete hs (Indexed.inv_history s ops) hw hm hr f

/-- C60: the derived variables of the result have the values of their computation methods if those of
the original system do. -/
theorem C60_derived {bus : Bus p} {h : Handler p} (hs : h.Sound bus)
    (s : ConstraintSystem p V) (ops : List (IndexedOp p V))
    (hd : (indexedHistory s ops).sys.DerivedWF)
    (ch : Choices p V) (A : (V → ZMod p) → Prop) (solver solver' : Solver p V)
    (hm : solver.MadeFor bus h A) (s' : ConstraintSystem p V) (l : List (V × GExpr p V))
    (hr : solverBased h ch (indexedHistory s ops) solver = .ok (s', l, solver'))
    (σ : V → ZMod p) (hσ : A σ) (hc : (indexedHistory s ops).sys.Computed σ) :
    s'.DerivedWF ∧ s'.Computed σ := by
  have := solverBased_derived hs (Indexed.inv_history s ops) hm hr hσ fun d h => ⟨hd d h, hc d h⟩
  exact ⟨fun d hd => (this d hd).1, fun d hd => (this d hd).2⟩

/-- C60: whatever the solver answers, every solution of the result extends to a solution of the
original system that sends the same messages; only assigned variables change. -/
theorem C60_sound (h : Handler p) (s : ConstraintSystem p V) (ops : List (IndexedOp p V))
    (ch : Choices p V) (solver solver' : Solver p V) (s' : ConstraintSystem p V)
    (l : List (V × GExpr p V))
    (hr : solverBased h ch (indexedHistory s ops) solver = .ok (s', l, solver')) (bus : Bus p)
    (f : ZMod p → Bool) (σ : V → ZMod p) (hσ : s'.Satisfied bus σ) :
    ∃ τ, (∀ v, v ∉ l.map Prod.fst → τ v = σ v) ∧
      (indexedHistory s ops).sys.Satisfied bus τ ∧
      (indexedHistory s ops).sys.messages f τ = s'.messages f σ := by
  obtain ⟨h1, h2⟩ := solverBased_sound (Indexed.inv_history s ops) hr bus f hσ
  exact ⟨beforeSubsts σ l, fun v hv => beforeSubsts_of_not_mem σ hv, h1, h2⟩

/-- `x0 = 5`, `x1 = x3`, and `x4` is computed as `x3 / x0`. -/
def solvedSample : ConstraintSystem 17 ℕ :=
  ⟨[var 0 - const 5, var 1 - var 3], [⟨const 7, const 1, [var 0, var 1 * var 2]⟩],
    [⟨4, .quotientOrZero (var 3) (var 0)⟩]⟩

/-- A solver that knows the algebraic constraints of the sample. -/
def solvedSampleSolver : Solver 17 ℕ :=
  match newSolver ⟨solvedSample.algebraic, [], []⟩ with
  | .ok s => s
  | .error _ => Solver.new

example : (solverBased defaultHandler (plainChoices 17 ℕ) (indexedHistory solvedSample [])
    solvedSampleSolver).toOption.map (fun r => (r.1, r.2.1)) =
    some (⟨[const 0, const 0], [⟨const 7, const 1, [const 5, var 1 * var 2]⟩],
        [⟨4, .quotientOrZero (var 1) (const 5)⟩]⟩,
      [(0, const 5), (3, var 1)]) := by decide +kernel

example : solvedSampleSolver.MadeFor (fun _ => True) defaultHandler
    fun σ => solvedSample.Satisfied (fun _ => True) σ := by
  have h : newSolver ⟨solvedSample.algebraic, [], []⟩ = .ok solvedSampleSolver := by
    have h1 : (newSolver ⟨solvedSample.algebraic, [], []⟩).toOption.isSome = true := by
      decide +kernel
    unfold solvedSampleSolver
    cases h2 : newSolver ⟨solvedSample.algebraic, [], []⟩ with
    | error e => rw [h2] at h1; cases h1
    | ok s => rfl
  refine (newSolver_madeFor ⟨?_, by simp⟩ h).mono fun σ hσ => ⟨hσ.1, by simp⟩
  intro e he
  simp only [solvedSample, List.mem_cons, List.not_mem_nil, or_false] at he
  rcases he with rfl | rfl
  · exact wf_sub (wf_var _) (wf_const _)
  · exact wf_sub (wf_var _) (wf_var _)

example : solvedSample.DerivedWF ∧ solvedSample.Computed (fun v =>
    if v = 0 then 5 else if v = 1 ∨ v = 3 then 10 else 2) := by
  refine ⟨fun d hd => ?_, by unfold ConstraintSystem.Computed DerivedVariable.Computed; decide +kernel⟩
  cases List.mem_singleton.1 hd
  exact ⟨wf_var _, wf_var _⟩

/-! ## C61: constant fields -/

/-- C61: a solution of the result is a solution of the original system, with the same messages,
whatever the solver answers. -/
theorem C61_sound (solver : Solver p V) (s : ConstraintSystem p V) (bus : Bus p)
    (f : ZMod p → Bool) (σ : V → ZMod p) (hσ : (substituteBusFields solver s).Satisfied bus σ) :
    s.Satisfied bus σ ∧ (substituteBusFields solver s).messages f σ = s.messages f σ :=
  substituteBusFields_sound f hσ

/-- C61: a solution that the solver was made for is kept. -/
theorem C61_complete {bus : Bus p} {h : Handler p} (hs : h.Sound bus) (A : (V → ZMod p) → Prop)
    (solver : Solver p V) (hm : solver.MadeFor bus h A) (s : ConstraintSystem p V) (hw : s.WF) :
    (substituteBusFields solver s).WF ∧ ∀ σ, A σ → s.Satisfied bus σ →
      (substituteBusFields solver s).Satisfied bus σ :=
  ⟨substituteBusFields_wf solver hw,
   fun _ hA hσ => substituteBusFields_complete hs hm hw hA hσ⟩

/-- A solver that has found `x0 * x1 = 5`. -/
def constantSampleSolver : Solver 17 ℕ :=
  { (Solver.new : Solver 17 ℕ) with
    linSubs := [(var (.original 0) * var (.original 1), const 5)] }

example : substituteBusFields constantSampleSolver
    ⟨[var 0 * var 1 - const 5], [⟨const 7, const 1, [var 0 * var 1, var 1 * var 2]⟩], []⟩ =
    (⟨[var 0 * var 1 - const 5, var 0 * var 1 - const 5],
      [⟨const 7, const 1, [const 5, var 1 * var 2]⟩], []⟩ :
      ConstraintSystem 17 ℕ) := by decide +kernel

end Verif
