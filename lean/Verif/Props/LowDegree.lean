import Verif.Proofs.LowDegreeOpenVm
import Verif.Props.OpenVm
import Verif.Props.ConstraintOptimizer

/-!
# C52: replacing lookups by polynomial constraints
-/

set_option linter.unusedSectionVars false

namespace Verif

open RangeConstraint GExpr

variable {p : ℕ} {V : Type} [LinearOrder V] [Fact p.Prime]

/-- C52: solutions the solver was made for are kept, together with the messages they send on
stateful buses, and the solver stays correct for them. -/
theorem C52_complete {bus : Bus p} {h : Handler p} (hs : h.Sound bus) (isStateful : ZMod p → Bool)
    (rh : RangeHandler p V) (hrh : rh.MakesExactly bus isStateful) (bound : DegreeBound)
    (s s' : ConstraintSystem p V) (hw : s.WF) (A : (V → ZMod p) → Prop)
    (hA : ∀ σ, A σ → s.Satisfied bus σ) (solver solver' : Solver p V)
    (hm : solver.MadeFor bus h A)
    (ho : lowDegreeOptimize h rh isStateful bound s solver = .ok (s', solver')) :
    s'.WF ∧ solver'.MadeFor bus h A ∧ ∀ σ, A σ →
      s'.Satisfied bus σ ∧ s'.messages isStateful σ = s.messages isStateful σ := by
  obtain ⟨r, out, h1, h2, rfl⟩ := lowDegreeOptimize_ok ho
  obtain ⟨w1, w2⟩ := lowDegreeLoop_wf hrh h1 hw.2
  have hc : ∀ σ, A σ → (∀ b ∈ r.1, bus (b.evalAt σ)) ∧ ∀ e ∈ r.2, eval σ e = 0 :=
    fun σ hσ => lowDegreeLoop_complete hs hrh hm hσ h1 hw.2 (hA σ hσ).2
  refine ⟨⟨fun e he => (List.mem_append.1 he).elim (hw.1 e) (w2 e), w1⟩,
    (hm.run hs (op := .addAlgebraic r.2) w2 h2 fun σ hσ => (hc σ hσ).2).1, fun σ hσ => ⟨⟨?_, ?_⟩, ?_⟩⟩
  · exact fun e he => (List.mem_append.1 he).elim ((hA σ hσ).1 e) ((hc σ hσ).2 e)
  · exact (hc σ hσ).1
  · exact lowDegreeLoop_messages hrh σ h1

/-- C52: no solution is added, if the handler decides the lookups. The solver need not be right. -/
theorem C52_sound {bus : Bus p} (h : Handler p) (isStateful : ZMod p → Bool)
    (rh : RangeHandler p V) (hrh : rh.MakesExactly bus isStateful) (bound : DegreeBound)
    (s s' : ConstraintSystem p V) (solver solver' : Solver p V)
    (hd : ∀ b ∈ s.bus, ∀ id, b.busId = const id → isStateful id = false → h.Decides bus solver b)
    (ho : lowDegreeOptimize h rh isStateful bound s solver = .ok (s', solver'))
    (σ : V → ZMod p) (hσ : s'.Satisfied bus σ) :
    s.Satisfied bus σ ∧ s'.messages isStateful σ = s.messages isStateful σ := by
  obtain ⟨r, out, h1, h2, rfl⟩ := lowDegreeOptimize_ok ho
  exact ⟨⟨fun e he => hσ.1 e (List.mem_append.2 (Or.inl he)),
    lowDegreeLoop_sound hrh h1 hd hσ.2 fun e he => hσ.1 e (List.mem_append.2 (Or.inr he))⟩,
    lowDegreeLoop_messages hrh σ h1⟩

/-- C52: with the handlers of OpenVM the solutions of the system are kept exactly, if the solver was
made for them and knows that the operands of bitwise lookups are bytes. -/
theorem C52_openvm (m : BusMap) (hm : m.Fits p) (hp : 2 ^ 26 ≤ p) (h64 : ∀ x ∈ m, x.1 < 2 ^ 64)
    (bound : DegreeBound) (s s' : ConstraintSystem p V) (hw : s.WF) (solver solver' : Solver p V)
    (hmade : solver.MadeFor (openVmBus m) (openVmHandler m) fun σ => s.Satisfied (openVmBus m) σ)
    (hk : ∀ b ∈ s.bus, ∀ id, b.busId = const id → openVmStateful m id = false →
      OpenVmKnown m solver b)
    (ho : lowDegreeOptimize (openVmHandler m) (openVmRangeHandler m) (openVmStateful m) bound s
      solver = .ok (s', solver')) (σ : V → ZMod p) :
    (s'.Satisfied (openVmBus m) σ ↔ s.Satisfied (openVmBus m) σ) ∧
      s'.messages (openVmStateful m) σ = s.messages (openVmStateful m) σ := by
  have hmk := openVm_makesExactly (V := V) hm hp h64
  have hsound : (openVmHandler m).Sound (openVmBus m) :=
    openVmHandler_sound (lt_of_lt_of_le (by norm_num : 25 < 2 ^ 26) hp) hm
  refine ⟨⟨fun h => ?_, fun h => ?_⟩, ?_⟩
  · exact (C52_sound _ _ _ hmk bound s s' solver solver' (fun b hb id hid hst =>
      openVm_decides hm (lt_of_lt_of_le (by norm_num : 256 < 2 ^ 26) hp) hid hst
        (hk b hb id hid hst)) ho σ h).1
  · exact ((C52_complete hsound _ _ hmk bound s s' hw _ (fun σ h => h) solver solver' hmade ho).2.2
      σ h).1
  · obtain ⟨r, out, h1, h2, rfl⟩ := lowDegreeOptimize_ok ho
    exact lowDegreeLoop_messages hmk σ h1

/-- C52: the new constraints are within the degree bound. -/
theorem C52_degree (h : Handler p) (isStateful : ZMod p → Bool) (rh : RangeHandler p V)
    (bound : DegreeBound) (s s' : ConstraintSystem p V) (solver solver' : Solver p V)
    (ho : lowDegreeOptimize h rh isStateful bound s solver = .ok (s', solver')) :
    ∀ e ∈ s'.algebraic, e ∈ s.algebraic ∨ e.degree ≤ bound.identities := by
  obtain ⟨r, out, h1, h2, rfl⟩ := lowDegreeOptimize_ok ho
  intro e he
  exact (List.mem_append.1 he).imp id (lowDegreeLoop_degree h1 e)

attribute [local instance] fact_babyBear

/-- The solver knows the ranges of the variables `0`, `1`. -/
def rangesSolver (l : List (ℕ × RangeConstraint 2013265921)) :
    Except Stop (List (SolverOut 2013265921 ℕ) × Solver 2013265921 ℕ) :=
  runOps (openVmHandler BusMap.default) (l.map fun x => .addRange x.1 x.2) Solver.new

def lowDegreeSample (l : List (ℕ × RangeConstraint 2013265921))
    (payload : List (GExpr 2013265921 ℕ)) : Except Stop (ConstraintSystem 2013265921 ℕ) := do
  let solver ← rangesSolver l
  let r ← lowDegreeOptimize (openVmHandler BusMap.default) (openVmRangeHandler BusMap.default)
    (openVmStateful BusMap.default) ⟨3, 3⟩ ⟨[], [⟨const 6, const 1, payload⟩], []⟩ solver.2
  pure r.1

set_option maxRecDepth 100000 in
example : lowDegreeSample [(0, fromMask 1), (1, fromMask 1)] [var 0, var 1, var 2, const 1] = .ok
    ⟨[var 2 - (var 0 + var 1 - const 2 * (var 0 * var 1))],
      [⟨const 3, const 1, [var 0, const 1]⟩, ⟨const 3, const 1, [var 1, const 1]⟩], []⟩ := by
  decide +kernel

/-- The hypotheses of `C52_openvm` for a lookup of two bits: there is such a solver. -/
example : ∃ solver : Solver 2013265921 ℕ,
    rangesSolver [(0, fromMask 1), (1, fromMask 1)] = .ok ([.unit, .unit], solver) ∧
    OpenVmKnown BusMap.default solver ⟨const 6, const 1, [var 0, var 1, var 2, const 1]⟩ := by
  refine ⟨_, rfl, ⟨?_, Or.inl ⟨1, rfl⟩⟩⟩
  intro id x y z op hid _ hpay e he v hv
  simp only [List.cons.injEq, and_true] at hpay
  obtain ⟨rfl, rfl, rfl, rfl⟩ := hpay
  have key : ∀ r : RangeConstraint 2013265921, r.max.val < 256 → r.min = 0 →
      r.allowsValue v = true → v.val < 256 := by
    intro r h1 h2 h3
    have := ((allowsValue_iff _ _).1 h3).1
    rw [h2, inCyc_zero_iff] at this
    omega
  rcases he with rfl | rfl
  · rcases hv with hv | hv
    · exact key _ (by decide +kernel) (by decide +kernel) hv
    · exact key _ (by decide +kernel) (by decide +kernel) hv
  · rcases hv with hv | hv
    · exact key _ (by decide +kernel) (by decide +kernel) hv
    · exact key _ (by decide +kernel) (by decide +kernel) hv

/-- The negation of a byte. -/
example : lowDegreeSample [(0, fromMask 3)] [const 255, var 0, var 1, const 1] = .ok
    ⟨[var 1 - (const 255 - var 0)], [⟨const 3, const 1, [var 0, const 2]⟩], []⟩ := by
  decide +kernel

/-- Without the knowledge that operands are bytes the conclusion of `C52_openvm` fails: the handler
does not reject the constant operand 65535, so that a lookup that is never admissible is replaced,
if it is known that the other operand is zero. -/
theorem C52_operand_not_byte :
    ∃ s', lowDegreeSample [(0, fromValue 0)] [const 65535, var 0, var 1, const 1] = .ok s' ∧
      (∃ σ, s'.Satisfied (openVmBus BusMap.default) σ) ∧
      ∀ σ : ℕ → ZMod 2013265921, ¬ openVmBus BusMap.default
        (BusInteraction.evalAt σ ⟨const 6, const 1, [const 65535, var 0, var 1, const 1]⟩) := by
  refine ⟨⟨[var 1 - (const 65535 - var 0)], [⟨const 3, const 1, [var 0, const 0]⟩], []⟩,
    by decide +kernel, ⟨fun v => if v = 1 then 65535 else 0, ?_, ?_⟩, ?_⟩
  · intro e he
    rw [List.mem_singleton.1 he]
    decide +kernel
  · intro b hb
    rw [List.mem_singleton.1 hb]
    intro _
    refine ⟨.other .variableRangeChecker, by decide +kernel, 0, 0, by decide +kernel, ?_, ?_⟩ <;>
      decide +kernel
  · intro σ h
    have h6 : ((6 : ZMod 2013265921)).val = 6 := by decide +kernel
    have hmem : (((6 : ZMod 2013265921)).val, BusType.other .bitwiseLookup) ∈
        BusMap.default := by rw [h6]; decide
    obtain ⟨t, ht, ha⟩ := h (by rw [BusInteraction.evalAt, eval_const]; exact one_ne_zero)
    rw [BusInteraction.evalAt, eval_const] at ht
    rw [key_unique default_fits.keys ht hmem] at ha
    obtain ⟨x, y, z, op, hx, h1, -⟩ := ha
    simp only [BusInteraction.evalAt, List.map_cons, List.map_nil, eval_const,
      List.cons.injEq] at hx
    rw [← hx.1] at h1
    revert h1
    decide +kernel

/-- If one of two operands is known to be zero without being constant, several of the functions that
are tried agree with the lookup, and the optimizer panics. -/
theorem C52_ambiguous_panics : lowDegreeSample [(0, fromValue 0), (1, fromMask 1)]
    [var 0, var 1, var 2, const 1] = .error .panic := by
  decide +kernel

end Verif
