import Verif.Proofs.RangeOptimizer
import Verif.Proofs.Primes

/-!
# C31 - C34: OpenVM buses and range constraints
-/

namespace Verif

open RangeConstraint GExpr

variable {p : ℕ} [Fact p.Prime] {V : Type} [LinearOrder V]

/-! ## C31 -/

/-- Every tuple that the bus admits and that is within the ranges passed to the handler is within
the ranges it returns, for all buses of the map and all ranges. -/
theorem C31_handler_sound (m : BusMap) (hp : 25 < p) (hm : m.Fits p)
    (r r' : BusInteraction (RangeConstraint p)) (h : openVmHandler m r = .ok r') :
    r'.payload.length = r.payload.length ∧
      ∀ b : BusInteraction (ZMod p), openVmBus m b → b.Within r → b.Within r' :=
  openVmHandler_sound hp hm r r' h

theorem fact_babyBear : Fact (Nat.Prime 2013265921) := ⟨babyBear_prime⟩

attribute [local instance] fact_babyBear

theorem default_fits : BusMap.default.Fits 2013265921 := by
  refine ⟨by decide, by decide, fun id s0 s1 h => ?_⟩
  simp only [BusMap.default, List.mem_cons, Prod.mk.injEq, reduceCtorEq, and_false, false_or,
    BusType.other.injEq, OpenVmBusType.tupleRangeChecker.injEq, List.not_mem_nil, or_false] at h
  obtain ⟨-, rfl, rfl⟩ := h
  norm_num

/-- The exclusive or of a nibble and an unknown byte: the result is a byte. -/
example : openVmHandler BusMap.default
    ⟨fromValue (6 : ZMod 2013265921), fromValue 1,
      [fromMask 0xf, unconstrained, unconstrained, fromValue 1]⟩ =
    .ok ⟨fromValue 6, fromValue 1, [fromMask 0xff, fromMask 0xff, fromMask 0xff, fromValue 1]⟩ := by
  decide +kernel
example : openVmBus BusMap.default (⟨6, 1, [3, 5, 6, 1]⟩ : BusInteraction (ZMod 2013265921)) := by
  intro _
  exact ⟨.other .bitwiseLookup, by decide, 3, 5, 6, 1, rfl, by unfold BitwiseTable; decide +kernel⟩
/-- Register zero contains zero. -/
example : openVmHandler BusMap.default
    ⟨fromValue (1 : ZMod 2013265921), fromValue (-1),
      [fromValue 1, fromValue 0, unconstrained, unconstrained, unconstrained]⟩ =
    .ok ⟨fromValue 1, fromValue (-1),
      [fromValue 1, fromValue 0, fromValue 0, fromValue 0, unconstrained]⟩ := by
  decide +kernel

/-! ## C32 -/

/-- An interaction that is sent and reported to be a pure range constraint is admissible exactly if
the listed expressions are in the listed ranges, unless it is an interaction with the variable range
checker with more than 25 bits. -/
theorem C32_pure_exact (m : BusMap) (hm : m.Fits p) (b : BusInteraction (GExpr p V))
    (rcs : RangeConstraints p V) (h : pureRangeConstraints m b = .ok (some rcs)) (σ : V → ZMod p)
    (h0 : eval σ b.multiplicity ≠ 0)
    (hbits : ∀ x bits, b.payload = [x, bits] →
      ((eval σ b.busId).val, BusType.other .variableRangeChecker) ∈ m → (eval σ bits).val ≤ 25) :
    openVmBus m (b.evalAt σ) ↔ ∀ x ∈ rcs, x.2.allowsValue (eval σ x.1) = true := by
  simp only [allowsValue_iff]
  exact pure_iff hm h h0 hbits

/-- With 26 bits the interaction is reported to be a range constraint that `0` meets, although the
table does not contain any tuple with 26 bits. -/
theorem C32_too_many_bits_inexact :
    ∃ (b : BusInteraction (GExpr 2013265921 ℕ)) (rcs : RangeConstraints 2013265921 ℕ),
      b.multiplicity = const 1 ∧ pureRangeConstraints BusMap.default b = .ok (some rcs) ∧
      (∀ σ : ℕ → ZMod 2013265921, ¬ openVmBus BusMap.default (b.evalAt σ)) ∧
      ∃ σ : ℕ → ZMod 2013265921, ∀ x ∈ rcs, x.2.allowsValue (eval σ x.1) = true := by
  refine ⟨⟨const 3, const 1, [var 0, const 26]⟩, [(var 0, fromMask (2 ^ 26 - 1))], rfl,
    by decide +kernel, fun σ h => ?_, fun _ => 0, by decide +kernel⟩
  have h3 : ((3 : ZMod 2013265921)).val = 3 := by decide +kernel
  have hmem : (((3 : ZMod 2013265921)).val, BusType.other .variableRangeChecker) ∈
      BusMap.default := by rw [h3]; decide
  obtain ⟨t, ht, ha⟩ := h (by rw [BusInteraction.evalAt, eval_const]; exact one_ne_zero)
  rw [BusInteraction.evalAt, eval_const] at ht
  rw [key_unique default_fits.keys ht hmem] at ha
  obtain ⟨x, bits, hx, h1, -⟩ := ha
  simp only [BusInteraction.evalAt, List.map_cons, List.map_nil, eval_const, List.cons.injEq,
    and_true] at hx
  rw [← hx.2] at h1
  revert h1
  decide +kernel

/-- Two expressions sent to the bitwise lookup with operation zero. -/
example : pureRangeConstraints BusMap.default
    (⟨const 6, const 1, [var 0, var 1, const 0, const 0]⟩ :
      BusInteraction (GExpr 2013265921 ℕ)) =
    .ok (some [(var 0, fromMask 0xff), (var 1, fromMask 0xff), (const 0, fromValue 0)]) := by
  decide +kernel
example : pureRangeConstraints BusMap.default
    (⟨const 6, const 1, [var 0, var 0, var 1, var 2]⟩ : BusInteraction (GExpr 2013265921 ℕ)) =
    .ok (some [(var 0, fromMask 0xff), (var 1, fromValue 0), (var 2, fromMask 1)]) := by
  decide +kernel

/-! ## C33 -/

/-- The interactions made never relax the requested ranges. -/
theorem C33_never_relaxes (m : BusMap) (hp : 256 < p) (hm : m.Fits p) (rcs : RangeConstraints p V)
    (made : List (BusInteraction (GExpr p V)))
    (h : batchMakeRangeConstraints m rcs = .ok (some made)) (σ : V → ZMod p)
    (hσ : ∀ b ∈ made, openVmBus m (b.evalAt σ)) :
    ∀ x ∈ rcs, x.2.allowsValue (eval σ x.1) = true := by
  simp only [allowsValue_iff]
  obtain ⟨rest, -, hiff⟩ := batchMake_iff hp hm h σ
  exact (hiff.1 hσ).1

/-- They are exact, unless a range of 26 to 29 bits is requested. -/
theorem C33_make_exact (m : BusMap) (hp : 256 < p) (hm : m.Fits p) (rcs : RangeConstraints p V)
    (made : List (BusInteraction (GExpr p V)))
    (h : batchMakeRangeConstraints m rcs = .ok (some made))
    (hbits : ∀ x ∈ rcs, ∀ n, 25 < n → n < 30 → x.2 ≠ fromMask (2 ^ n - 1)) (σ : V → ZMod p) :
    (∀ b ∈ made, openVmBus m (b.evalAt σ)) ↔
      ∀ x ∈ rcs, x.2.allowsValue (eval σ x.1) = true := by
  simp only [allowsValue_iff]
  obtain ⟨rest, hrest, hiff⟩ := batchMake_iff hp hm h σ
  rw [hiff]
  refine and_iff_left fun x hx => ?_
  obtain ⟨hx1, n, hn, hx2⟩ := hrest x hx
  refine ⟨n, ?_, hx2⟩
  by_contra hgt
  exact hbits x hx1 n (by omega) hn (rangeConstraintToNumBits_some hx2).2

/-- All interactions made have multiplicity one, and their fields are requested expressions and
constants. -/
theorem C33_made_unconditional (m : BusMap) (rcs : RangeConstraints p V)
    (made : List (BusInteraction (GExpr p V)))
    (h : batchMakeRangeConstraints m rcs = .ok (some made)) :
    ∀ b ∈ made, b.multiplicity = const 1 ∧
      ∀ e ∈ b.payload, (∃ rc, (e, rc) ∈ rcs) ∨ ∃ k, e = const k :=
  fun b hb => (batchMake_shape h b hb).2

/-- A range of 26 bits is accepted, although no interaction can implement it: the one that is made
is never admissible. -/
theorem C33_too_many_bits_accepted :
    ∃ (rcs : RangeConstraints 2013265921 ℕ) (made : List (BusInteraction (GExpr 2013265921 ℕ))),
      batchMakeRangeConstraints BusMap.default rcs = .ok (some made) ∧
      (∀ σ : ℕ → ZMod 2013265921, ¬ ∀ b ∈ made, openVmBus BusMap.default (b.evalAt σ)) ∧
      ∃ σ : ℕ → ZMod 2013265921, ∀ x ∈ rcs, x.2.allowsValue (eval σ x.1) = true := by
  refine ⟨[(var 0, fromMask (2 ^ 26 - 1))], [⟨const 3, const 1, [var 0, const 26]⟩],
    by decide +kernel, fun σ h => ?_, fun _ => 0, by decide +kernel⟩
  have h3 : ((3 : ZMod 2013265921)).val = 3 := by decide +kernel
  have hmem : (((3 : ZMod 2013265921)).val, BusType.other .variableRangeChecker) ∈
      BusMap.default := by rw [h3]; decide
  obtain ⟨t, ht, ha⟩ := h _ (List.mem_singleton.2 rfl)
    (by rw [BusInteraction.evalAt, eval_const]; exact one_ne_zero)
  rw [BusInteraction.evalAt, eval_const] at ht
  rw [key_unique default_fits.keys ht hmem] at ha
  obtain ⟨x, bits, hx, h1, -⟩ := ha
  simp only [BusInteraction.evalAt, List.map_cons, List.map_nil, eval_const, List.cons.injEq,
    and_true] at hx
  rw [← hx.2] at h1
  revert h1
  decide +kernel

/-- Three bytes, one range of the size of the second tuple entry, and 13 bits. -/
def makeSample : RangeConstraints 2013265921 ℕ :=
  [(var 0, fromMask 0xff), (var 1, fromMask 0xff), (var 2, fromMask (2 ^ 13 - 1)),
    (var 3, fromMask (2 ^ 11 - 1)), (var 4, fromMask 0xff), (var 0, fromMask 0xff)]

example : batchMakeRangeConstraints BusMap.default makeSample = .ok (some
    [⟨const 7, const 1, [var 0, var 3]⟩, ⟨const 6, const 1, [var 1, var 4, const 0, const 0]⟩,
      ⟨const 3, const 1, [var 2, const 13]⟩]) := by decide +kernel
example : ∀ x ∈ makeSample, ∀ n, 25 < n → n < 30 → x.2 ≠ fromMask (2 ^ n - 1) := by
  intro x hx n h1 h2
  interval_cases n <;> revert x <;> decide +kernel

/-! ## C34 -/

/-- The optimizer keeps the solutions exactly, for every handler that keeps its contract. -/
theorem C34_same_solutions (bus : Bus p) (h : Handler p) (hs : h.Sound bus) (rh : RangeHandler p V)
    (w : ℕ) (ch : Choices p V) (bound : DegreeBound) (s s' : ConstraintSystem p V)
    (he : rh.Exact bus w s.bus) (hw : s.WF)
    (ho : optimizeRangeConstraints h rh ch bound s = .ok s') (σ : V → ZMod p) :
    s'.Satisfied bus σ ↔ s.Satisfied bus σ :=
  optimizeRangeConstraints_iff hs he hw ho σ

/-- With the handlers of OpenVM: the solutions are kept exactly, for all systems without constant
bit counts above 25, if the tuple range checker is not larger than the variable range checker. -/
theorem C34_openvm (m : BusMap) (hm : m.Fits p) (hp : 2 ^ 26 ≤ p)
    (hsz : ∀ id s0 s1, (id, BusType.other (.tupleRangeChecker s0 s1)) ∈ m →
      s0 ≤ 2 ^ 25 ∧ s1 ≤ 2 ^ 25)
    (ch : Choices p V) (bound : DegreeBound) (s s' : ConstraintSystem p V) (hw : s.WF)
    (hb : SmallBitCounts m s.bus)
    (ho : optimizeRangeConstraints (openVmHandler m) (openVmRangeHandler m) ch bound s = .ok s')
    (σ : V → ZMod p) : s'.Satisfied (openVmBus m) σ ↔ s.Satisfied (openVmBus m) σ :=
  optimizeRangeConstraints_iff
    (openVmHandler_sound (lt_of_lt_of_le (by norm_num : 25 < 2 ^ 26) hp) hm)
    (openVm_exact hm hp hsz hb) hw ho σ

/-- New polynomial constraints are within the degree bound. -/
theorem C34_degree (h : Handler p) (rh : RangeHandler p V) (ch : Choices p V) (bound : DegreeBound)
    (s s' : ConstraintSystem p V) (ho : optimizeRangeConstraints h rh ch bound s = .ok s') :
    ∀ e ∈ s'.algebraic, e ∈ s.algebraic ∨ e.degree ≤ bound.identities := by
  obtain ⟨kept, rcs, solver, made, -, -, -, -, rfl⟩ := optimizeRangeConstraints_ok ho
  intro e he
  rcases List.mem_append.1 he with h | h
  · exact Or.inl h
  · obtain ⟨x, hx, rfl⟩ := List.mem_map.1 h
    have := (List.mem_filter.1 hx).2
    unfold asBit at this
    simp only [Bool.and_eq_true, decide_eq_true_eq] at this
    exact Or.inr this.2

/-- The byte `x0` is checked twice, the bits `x1` and `x2` are checked by lookups, and
`x2 = 1` is a constraint. -/
def rangeSample : ConstraintSystem 2013265921 ℕ where
  algebraic := [var 2 - const 1]
  bus := [⟨const 6, const 1, [var 0, var 3, const 0, const 0]⟩,
    ⟨const 3, const 1, [var 0, const 8]⟩, ⟨const 3, const 1, [var 1, const 1]⟩,
    ⟨const 3, const 1, [var 2, const 1]⟩]
  derived := []

/-- What remains is one lookup. The bit `x1` is checked by a polynomial constraint. -/
example : (optimizeRangeConstraints (openVmHandler BusMap.default) (openVmRangeHandler BusMap.default)
      (plainChoices 2013265921 ℕ) ⟨3, 3⟩ rangeSample).toOption.map
      (fun s => decide (s.bus = [⟨const 6, const 1, [var 0, var 3, const 0, const 0]⟩])) =
    some true := by decide +kernel
example : asBit ⟨3, 3⟩ ((var 1, fromMask 1) : GExpr 2013265921 ℕ × _) = true := by decide +kernel
example : SmallBitCounts BusMap.default rangeSample.bus := by
  intro b hb id x n hid hp _
  simp only [rangeSample, List.mem_cons, List.not_mem_nil, or_false] at hb
  rcases hb with rfl | rfl | rfl | rfl <;> simp [const] at hp
  all_goals (obtain ⟨-, rfl⟩ := hp; decide +kernel)

end Verif
