import Verif.Proofs.OptimizerPanics
import Verif.Proofs.LowDegreeOpenVm
import Verif.Proofs.RangeOptimizer
import Verif.Props.OpenVm

/-! The OpenVM handlers accept bus interactions of the expected shape. -/

set_option linter.unusedSectionVars false

namespace Verif

open RangeConstraint GExpr

variable {p : ℕ} [Fact p.Prime] {V : Type} [LinearOrder V]

/-! ### Accepted bus interactions -/

theorem toU64_total (h : p ≤ 2 ^ 64) (v : ZMod p) : toU64 v = .ok v.val := by
  unfold toU64
  rw [if_pos (lt_of_lt_of_le (ZMod.val_lt v) h)]

theorem toU32_total (h : p ≤ 2 ^ 32) (v : ZMod p) : toU32 v = .ok v.val := by
  unfold toU32
  rw [if_pos (lt_of_lt_of_le (ZMod.val_lt v) h)]

theorem handleMemory_total (h32 : p ≤ 2 ^ 32) (k : ZMod p) {l : List (RangeConstraint p)}
    (hl : 4 ≤ l.length) : ∃ r, handleMemory k l = .ok r := by
  match l, hl with
  | a :: b :: rest, hl =>
    simp only [List.length_cons] at hl
    rw [handleMemory]
    cases hr : rest.getLast? with
    | none =>
      rw [List.getLast?_eq_none_iff] at hr
      subst hr
      simp at hl
    | some ts =>
      simp only
      have : rest.dropLast.isEmpty = false := by
        rw [List.isEmpty_eq_false_iff, ← List.length_pos_iff, List.length_dropLast]
        omega
      simp only [this]
      split
      · contradiction
      · split
        · exact ⟨_, rfl⟩
        · split
          · exact ⟨_, rfl⟩
          · rw [toU32_total h32]
            simp only [bind, Except.bind]
            split <;> exact ⟨_, rfl⟩

theorem handleBitwise_total (h64 : p ≤ 2 ^ 64) (x y z : RangeConstraint p) {op : ZMod p}
    (hop : op = 0 ∨ op = 1) : ∃ r, handleBitwiseLookup [x, y, z, fromValue op] = .ok r := by
  rw [handleBitwiseLookup, fromValue_single]
  simp only [toU64_total h64, bind, Except.bind]
  split
  · exact ⟨_, rfl⟩
  · rename_i h0
    split
    · split <;> exact ⟨_, rfl⟩
    · rename_i h1
      rcases hop with rfl | rfl
      · simp at h0
      · exact absurd (ZMod.val_one p) h1

theorem handleRange_total (h64 : p ≤ 2 ^ 64) {l : List (RangeConstraint p)} (hl : l.length = 2) :
    ∃ r, handleVariableRangeChecker l = .ok r := by
  match l, hl with
  | [x, y], _ =>
    rw [handleVariableRangeChecker]
    split
    · exact ⟨_, rfl⟩
    · simp only [toU64_total h64, bind, Except.bind]
      split <;> exact ⟨_, rfl⟩

theorem handleTuple_total {s0 s1 : ℕ} (h0 : 0 < s0) (h1 : 0 < s1) {l : List (RangeConstraint p)}
    (hl : l.length = 2) : ∃ r, handleTupleRangeChecker s0 s1 l = .ok r := by
  match l, hl with
  | [x, y], _ =>
    rw [handleTupleRangeChecker, tupleRanges, if_neg (by omega)]
    exact ⟨_, rfl⟩

theorem openVm_accepts {m : BusMap} (hm : m.Fits p) (h32 : p ≤ 2 ^ 32) {b : BusInteraction (GExpr p V)}
    (hb : OpenVmShape m b) : (openVmHandler m : Handler p).Accepts b := by
  obtain ⟨i, t, hid, hmem, hf⟩ := hb
  have h64 : p ≤ 2 ^ 64 := le_trans h32 (by norm_num)
  intro r hr
  obtain ⟨rid, rm, rl⟩ := r
  cases hr with
  | cons k1 k2 =>
  cases k2 with
  | cons k2 k3 =>
  have hk1 : rid = fromValue i := k1 i hid
  subst hk1
  simp only [openVmHandler, fromValue_single]
  cases hrm : rm.tryToSingleValue with
  | none => exact ⟨_, rfl⟩
  | some k =>
    simp only
    split
    · exact ⟨_, rfl⟩
    · have hbt : m.busType i.val = .ok t := by
        unfold BusMap.busType
        rw [mapGet_of_mem hm.keys hmem]
      simp only [toU64_total h64, bind, Except.bind, hbt]
      have : ∃ r, t.handle k rl = .ok r := by
        have hlen := k3.length_eq
        cases t with
        | executionBridge => exact ⟨_, rfl⟩
        | pcLookup => exact ⟨_, rfl⟩
        | memory => exact handleMemory_total h32 _ (by rw [← hlen]; exact hf)
        | other t =>
          cases t with
          | variableRangeChecker => exact handleRange_total h64 (by rw [← hlen]; exact hf)
          | tupleRangeChecker s0 s1 =>
            obtain ⟨p0, -, p1, -⟩ := hm.sizes _ _ _ hmem
            exact handleTuple_total p0 p1 (by rw [← hlen]; exact hf)
          | bitwiseLookup =>
            obtain ⟨x, y, z, op, hpl, hop⟩ := hf
            rw [hpl] at k3
            cases k3 with
            | cons _ k3 =>
            cases k3 with
            | cons _ k3 =>
            cases k3 with
            | cons _ k3 =>
            cases k3 with
            | cons h4 k3 =>
            cases k3
            rw [h4 op rfl]
            exact handleBitwise_total h64 _ _ (fromValue 0) hop
      obtain ⟨r, hr⟩ := this
      rw [hr]
      exact ⟨_, rfl⟩

theorem openVmShape_closed (m : BusMap) : ShapeClosed (OpenVmShape (p := p) (V := V) m) := by
  rintro b f hf ⟨i, t, hid, hmem, h⟩
  refine ⟨i, t, by rw [BusInteraction.map, hid]; exact hf i, hmem, ?_⟩
  have hl : (b.map f).payload = b.payload.map f := rfl
  rw [hl]
  cases t with
  | executionBridge => trivial
  | pcLookup => trivial
  | memory => exact le_of_le_of_eq h (List.length_map (as := b.payload) f).symm
  | other t =>
    cases t with
    | variableRangeChecker => exact (List.length_map (as := b.payload) f).trans h
    | tupleRangeChecker s0 s1 => exact (List.length_map (as := b.payload) f).trans h
    | bitwiseLookup =>
      obtain ⟨x, y, z, op, hpl, hop⟩ := h
      refine ⟨f x, f y, f z, op, ?_, hop⟩
      rw [hpl]
      simp only [List.map_cons, List.map_nil, hf]

/-! ### Pure range constraints -/

theorem openVm_pure {m : BusMap} (hm : m.Fits p) (h64 : p ≤ 2 ^ 64) {b : BusInteraction (GExpr p V)}
    (hb : OpenVmShape m b) : ∃ r, (openVmRangeHandler m : RangeHandler p V).pure b = .ok r := by
  obtain ⟨i, t, hid, hmem, hf⟩ := hb
  have hbt : m.busType i.val = .ok t := by
    unfold BusMap.busType
    rw [mapGet_of_mem hm.keys hmem]
  simp only [openVmRangeHandler, pureRangeConstraints]
  rw [hid, show (const i : GExpr p V).tryToNumber = some i from rfl]
  simp only [toU64_total h64, bind, Except.bind, hbt]
  cases t with
  | executionBridge => exact ⟨_, rfl⟩
  | pcLookup => exact ⟨_, rfl⟩
  | memory => exact ⟨_, rfl⟩
  | other t =>
    cases t with
    | bitwiseLookup =>
      obtain ⟨x, y, z, op, hpl, hop⟩ := hf
      simp only [hpl, bitwisePure]
      split
      · exact ⟨_, rfl⟩
      · split <;> exact ⟨_, rfl⟩
    | variableRangeChecker =>
      have hf : b.payload.length = 2 := hf
      generalize b.payload = l at hf
      match l, hf with
      | [x, y], _ =>
        simp only [variableRangeCheckerPure]
        split
        · exact ⟨_, rfl⟩
        · simp only [toU64_total h64, bind, Except.bind]
          exact ⟨_, rfl⟩
    | tupleRangeChecker s0 s1 =>
      have hf : b.payload.length = 2 := hf
      generalize b.payload = l at hf
      match l, hf with
      | [x, y], _ =>
        obtain ⟨p0, -, p1, -⟩ := hm.sizes _ _ _ hmem
        simp only [tupleRangeCheckerPure]
        rw [tupleRanges, if_neg (by omega)]
        exact ⟨_, rfl⟩

/-! ### Making range checks -/

theorem tupleSizes_total {m : BusMap} (h : ∃ id s0 s1, (id, BusType.other (.tupleRangeChecker s0 s1)) ∈ m) :
    ∃ id s0 s1, m.tupleSizes = .ok (s0, s1) ∧ (id, BusType.other (.tupleRangeChecker s0 s1)) ∈ m := by
  induction m with
  | nil => obtain ⟨_, _, _, h⟩ := h; cases h
  | cons a t ih =>
    obtain ⟨i, ty⟩ := a
    by_cases hty : ∃ s0 s1, ty = .other (.tupleRangeChecker s0 s1)
    · obtain ⟨s0, s1, rfl⟩ := hty
      exact ⟨i, s0, s1, by rw [BusMap.tupleSizes], List.mem_cons_self⟩
    · have h1 : BusMap.tupleSizes ((i, ty) :: t) = BusMap.tupleSizes t := by
        rw [BusMap.tupleSizes]
        intro _ s0 s1 heq
        cases heq
        exact hty ⟨s0, s1, rfl⟩
      obtain ⟨id, s0, s1, h⟩ := h
      rcases List.mem_cons.1 h with h | h
      · cases h
        exact absurd ⟨s0, s1, rfl⟩ hty
      · obtain ⟨id, s0, s1, k1, k2⟩ := ih ⟨id, s0, s1, h⟩
        exact ⟨id, s0, s1, h1.trans k1, List.mem_cons_of_mem _ k2⟩

theorem getBusId_total {m : BusMap} {t : BusType} (h : ∃ id, (id, t) ∈ m) : ∃ id, m.getBusId t = .ok id := by
  induction m with
  | nil => obtain ⟨_, h⟩ := h; cases h
  | cons a l ih =>
    obtain ⟨i, ty⟩ := a
    rw [BusMap.getBusId]
    split
    · exact ⟨_, rfl⟩
    · rename_i hne
      obtain ⟨id, h⟩ := h
      rcases List.mem_cons.1 h with h | h
      · cases h; exact absurd rfl hne
      · exact ih ⟨id, h⟩

theorem busIdIfNeeded_total {α : Type} {m : BusMap} {t : BusType} (h : ∃ id, (id, t) ∈ m) (l : List α) :
    ∃ id, busIdIfNeeded m t l = .ok id := by
  unfold busIdIfNeeded
  split
  · exact ⟨_, rfl⟩
  · exact getBusId_total h

theorem numBits_pow (k : ℕ) : numBits (2 ^ k - 1) = k := by
  apply le_antisymm
  · rw [numBits_le_iff]
    have : 0 < 2 ^ k := by positivity
    omega
  · by_contra h
    have h1 : numBits (2 ^ k - 1) ≤ k - 1 := by omega
    rw [numBits_le_iff] at h1
    have h2 : 2 ^ k = 2 * 2 ^ (k - 1) := by
      rw [← pow_succ']
      congr 1
      omega
    have : 0 < 2 ^ (k - 1) := by positivity
    omega

/-- The range of a power of two, as a range and as a mask. -/
theorem fromRange_pow {k : ℕ} (hk : 2 ^ k ≤ p) :
    (fromRange 0 ((2 ^ k - 1 : ℕ) : ZMod p) : RangeConstraint p) = fromMask (2 ^ k - 1) := by
  have hpos : 0 < 2 ^ k := by positivity
  unfold fromRange fromMask
  simp only [RangeConstraint.mk.injEq]
  refine ⟨?_, trivial, ?_⟩
  · rw [if_pos (by simp [fle]), val_cast_of_lt (by omega), numBits_pow]
    rfl
  · rw [val_neg_one]
    congr 1
    exact (Nat.min_eq_left (by omega)).symm

theorem batchMake_total {m : BusMap} (hp : 2 ^ 26 ≤ p) (hm : m.Complete) (rcs : RangeConstraints p V) :
    ∃ r, batchMakeRangeConstraints m rcs = .ok r := by
  obtain ⟨id, s0, s1, h1, h2⟩ := tupleSizes_total hm.tuple
  obtain ⟨rfl, k, hk, rfl⟩ := hm.sizes id s0 s1 h2
  have hpos : 0 < 2 ^ k := by positivity
  unfold batchMakeRangeConstraints
  rw [h1]
  simp only [bind, Except.bind]
  rw [tupleRanges, if_neg (by omega)]
  simp only
  rw [fromRange_pow (k := 8) (le_trans (by norm_num) hp), if_neg (by simp)]
  generalize List.zip _ _ = T
  generalize List.drop _ (byteExpressions rcs) = B
  generalize List.filter _ _ ++ _ = R
  obtain ⟨i1, k1⟩ := busIdIfNeeded_total ⟨id, h2⟩ T
  obtain ⟨i2, k2⟩ := busIdIfNeeded_total hm.bitwise B
  obtain ⟨i3, k3⟩ := busIdIfNeeded_total hm.range R
  rw [k1, k2, k3]
  exact ⟨_, rfl⟩

theorem byteChecks_fields {id : ℕ} : ∀ {l : List (GExpr p V)}, ∀ b ∈ byteChecks id l,
    b.busId = const (id : ZMod p) ∧ ∃ x y z op, b.payload = [x, y, z, const op] ∧ (op = 0 ∨ op = 1)
  | [] => by simp [byteChecks]
  | [x] => by
    intro b hb
    simp only [byteChecks, List.mem_singleton] at hb
    subst hb
    exact ⟨rfl, x, _, _, 0, rfl, Or.inl rfl⟩
  | x :: y :: t => by
    intro b hb
    rw [byteChecks] at hb
    rcases List.mem_cons.1 hb with rfl | hb
    · exact ⟨rfl, x, y, _, 0, rfl, Or.inl rfl⟩
    · exact byteChecks_fields b hb

theorem otherChecks_fields {id : ℕ} {l : RangeConstraints p V} {bs : List (BusInteraction (GExpr p V))}
    (h : otherChecks id l = some bs) :
    ∀ b ∈ bs, b.busId = const (id : ZMod p) ∧ b.payload.length = 2 := by
  induction l generalizing bs with
  | nil => cases h; simp
  | cons x t ih =>
    obtain ⟨e, rc⟩ := x
    rw [otherChecks] at h
    cases h1 : rangeConstraintToNumBits rc with
    | none => rw [h1] at h; cases h
    | some n =>
      rw [h1] at h
      cases h2 : otherChecks id t with
      | none => rw [h2] at h; cases h
      | some rest =>
        rw [h2] at h
        cases h
        intro b hb
        rcases List.mem_cons.1 hb with rfl | hb
        · exact ⟨rfl, rfl⟩
        · exact ih h2 b hb

set_option maxHeartbeats 1000000 in
-- many generalizations
theorem batchMake_fields {m : BusMap} (hm : m.Fits p) {rcs : RangeConstraints p V}
    {bs : List (BusInteraction (GExpr p V))} (h : batchMakeRangeConstraints m rcs = .ok (some bs)) :
    ∀ b ∈ bs, OpenVmShape m b := by
  have key : ∀ (b : BusInteraction (GExpr p V)) (id : ℕ) (t : BusType), b.busId = const (id : ZMod p) →
      (id, t) ∈ m → t.HasFields b.payload → OpenVmShape m b := by
    intro b id t h1 h2 h3
    exact ⟨_, t, h1, by rw [val_cast_of_lt (hm.ids _ h2)]; exact h2, h3⟩
  unfold batchMakeRangeConstraints at h
  cases hts : m.tupleSizes with
  | error x => rw [hts] at h; cases h
  | ok s =>
  obtain ⟨s0, s1⟩ := s
  rw [hts] at h
  simp only [bind, Except.bind] at h
  cases htr : tupleRanges (p := p) s0 s1 with
  | error x => rw [htr] at h; cases h
  | ok r =>
  rw [htr] at h
  simp only at h
  split at h
  · cases h
  · generalize hB : byteExpressions rcs = B at h
    generalize hS : (nonByteConstraints rcs).filter (fun x => decide (x.2 = r.2)) = S at h
    generalize hR : (nonByteConstraints rcs).filter (fun x => decide (x.2 ≠ r.2)) = R at h
    generalize hT : (B.take (S.take B.length).length).zip ((S.take B.length).map Prod.fst) = T at h
    generalize hrest : R ++ S.drop B.length = rest at h
    generalize hby : B.drop (S.take B.length).length = by' at h
    cases h1 : busIdIfNeeded m (.other (.tupleRangeChecker s0 s1)) T with
    | error x => rw [h1] at h; cases h
    | ok i1 =>
    rw [h1] at h
    cases h2 : busIdIfNeeded m (.other .bitwiseLookup) by' with
    | error x => rw [h2] at h; cases h
    | ok i2 =>
    rw [h2] at h
    cases h3 : busIdIfNeeded m (.other .variableRangeChecker) rest with
    | error x => rw [h3] at h; cases h
    | ok i3 =>
    rw [h3] at h
    simp only [pure, Except.pure, Except.ok.injEq] at h
    cases ho : otherChecks i3 rest with
    | none => rw [ho] at h; cases h
    | some others =>
    rw [ho] at h
    simp only [Option.bind_some, Option.some.injEq] at h
    subst h
    intro b hb
    rcases List.mem_append.1 hb with hb | hb
    · rcases List.mem_append.1 hb with hb | hb
      · rcases busIdIfNeeded_ok h1 with h | h
        · rw [h] at hb; cases hb
        · obtain ⟨x, -, rfl⟩ := List.mem_map.1 hb
          exact key _ _ _ rfl h rfl
      · rcases busIdIfNeeded_ok h2 with h | h
        · rw [h] at hb; cases hb
        · obtain ⟨k1, k2⟩ := byteChecks_fields b hb
          exact key _ _ _ k1 h k2
    · rcases busIdIfNeeded_ok h3 with h | h
      · rw [h] at ho; cases ho; cases hb
      · obtain ⟨k1, k2⟩ := otherChecks_fields ho b hb
        exact key _ _ _ k1 h k2

/-! ### The ranges found are made again -/

theorem and_pow (a b : ℕ) : (2 ^ a - 1) &&& (2 ^ b - 1) = 2 ^ min a b - 1 := by
  apply Nat.eq_of_testBit_eq
  intro i
  rw [Nat.testBit_and, Nat.testBit_two_pow_sub_one, Nat.testBit_two_pow_sub_one,
    Nat.testBit_two_pow_sub_one, ← Bool.decide_and]
  congr 1
  exact propext lt_min_iff.symm

theorem conjunction_pow {r : RangeConstraint p} {a b : ℕ} (hmin : r.min = 0) (hmask : r.mask = 2 ^ a - 1)
    (hb : 2 ^ b ≤ p) (hmax : min r.max.val (2 ^ b - 1) = 2 ^ min a b - 1) :
    r.conjunction (fromMask (2 ^ b - 1)) = fromMask (2 ^ min a b - 1) := by
  have hle : 2 ^ min a b ≤ 2 ^ b := Nat.pow_le_pow_right (by norm_num) (min_le_right _ _)
  have hpos : 0 < 2 ^ min a b := by positivity
  have hpos' : 0 < 2 ^ b := by positivity
  obtain ⟨rmask, rmin, rmax⟩ := r
  simp only at hmin hmask hmax
  subst hmin hmask
  have hfm : (fromMask (2 ^ b - 1) : RangeConstraint p) =
      ⟨2 ^ b - 1, 0, ((2 ^ b - 1 : ℕ) : ZMod p)⟩ := by
    unfold fromMask
    rw [val_neg_one]
    congr 2
    exact Nat.min_eq_left (by omega)
  have hvb : ((2 ^ b - 1 : ℕ) : ZMod p).val = 2 ^ b - 1 := val_cast_of_lt (by omega)
  have hfmin : fmin rmax ((2 ^ b - 1 : ℕ) : ZMod p) = ((2 ^ min a b - 1 : ℕ) : ZMod p) := by
    apply ZMod.val_injective p
    rw [val_cast_of_lt (show 2 ^ min a b - 1 < p by omega), ← hmax]
    unfold fmin
    rw [hvb]
    split
    · rw [Nat.min_eq_left (by assumption)]
    · rw [hvb, Nat.min_eq_right (by omega)]
  have hi : intervalIntersection (0, rmax) (0, ((2 ^ b - 1 : ℕ) : ZMod p)) =
      some (0, ((2 ^ min a b - 1 : ℕ) : ZMod p)) := by
    have hle0 : ∀ x : ZMod p, fle 0 x := fun x => by simp [fle]
    have hmx : fmax (0 : ZMod p) 0 = 0 := by simp [fmax]
    unfold intervalIntersection
    simp only [neg_zero, add_zero, hle0, and_self, if_true, Option.some_or, hfmin, hmx]
  rw [hfm]
  unfold conjunction
  simp only [hi, Option.getD_some, and_pow]
  have hlt : 2 ^ min a b - 1 < p := by omega
  rw [if_pos hlt, if_pos (show fle (0 : ZMod p) _ by simp [fle])]
  have h0 : fmin (((2 ^ min a b - 1 : ℕ) : ZMod p)) (0 : ZMod p) = 0 := by
    unfold fmin
    split
    · rename_i h
      rw [ZMod.val_zero] at h
      exact (ZMod.val_eq_zero _).1 (by omega)
    · rfl
  have h1 : fmin (((2 ^ min a b - 1 : ℕ) : ZMod p)) ((2 ^ min a b - 1 : ℕ) : ZMod p) =
      ((2 ^ min a b - 1 : ℕ) : ZMod p) := by simp [fmin]
  simp only [h0, h1]
  rw [if_pos (show fle (0 : ZMod p) _ by simp [fle]), fromRange_pow (by omega)]
  unfold fromMask
  simp only [Nat.and_self]
  rw [val_neg_one]
  congr 2
  exact (Nat.min_eq_left (by omega)).symm

/-- A range of a number of bits. -/
def BitRange (r : RangeConstraint p) : Prop := ∃ k ≤ 25, r = fromMask (2 ^ k - 1)

theorem merged_bits (hp : 2 ^ 26 ≤ p) {l : List (RangeConstraint p)} (hl : ∀ r ∈ l, BitRange r) (hne : l ≠ []) :
    BitRange (l.foldl conjunction unconstrained) := by
  have hk25 : ∀ k, k ≤ 25 → 2 ^ k < p := fun k hk =>
    lt_of_le_of_lt (Nat.pow_le_pow_right (by norm_num) hk) (lt_of_lt_of_le (by norm_num) hp)
  have step : ∀ (l : List (RangeConstraint p)) (a : RangeConstraint p), BitRange a → (∀ r ∈ l, BitRange r) →
      BitRange (l.foldl conjunction a) := by
    intro l
    induction l with
    | nil => exact fun a ha _ => ha
    | cons r t ih =>
      intro a ha hl
      rw [List.foldl_cons]
      refine ih _ ?_ fun r hr => hl r (List.mem_cons_of_mem _ hr)
      obtain ⟨i, hi, rfl⟩ := ha
      obtain ⟨j, hj, rfl⟩ := hl r List.mem_cons_self
      refine ⟨min i j, le_trans (min_le_left _ _) hi, ?_⟩
      refine conjunction_pow rfl rfl (hk25 j hj).le ?_
      rw [fromMask_max (lt_of_le_of_lt (Nat.sub_le _ _) (hk25 i hi))]
      rcases le_total i j with h | h
      · have := Nat.pow_le_pow_right (n := 2) (by norm_num) h
        rw [min_eq_left h]
        omega
      · have := Nat.pow_le_pow_right (n := 2) (by norm_num) h
        rw [min_eq_right h]
        omega
  cases l with
  | nil => exact absurd rfl hne
  | cons r t =>
    rw [List.foldl_cons]
    refine step t _ ?_ fun r hr => hl r (List.mem_cons_of_mem _ hr)
    obtain ⟨j, hj, rfl⟩ := hl r List.mem_cons_self
    have hjp := hk25 j hj
    have hbits : j ≤ numBits (-1 : ZMod p).val := by
      by_contra h
      have : numBits (-1 : ZMod p).val ≤ j := by omega
      rw [numBits_le_iff, val_neg_one] at this
      omega
    refine ⟨j, hj, ?_⟩
    have hmask : (unconstrained : RangeConstraint p).mask = 2 ^ numBits (-1 : ZMod p).val - 1 := by
      unfold unconstrained fromRange
      simp only
      rw [if_pos (by simp [fle])]
      rfl
    have := conjunction_pow (r := (unconstrained : RangeConstraint p)) rfl hmask hjp.le (by
      rw [min_eq_right hbits]
      show min (-1 : ZMod p).val _ = _
      rw [val_neg_one]
      omega)
    rw [min_eq_right hbits] at this
    exact this

theorem bits_found {r : RangeConstraint p} (h : BitRange r) : ∃ n, rangeConstraintToNumBits r = some n := by
  obtain ⟨k, hk, rfl⟩ := h
  cases h1 : rangeConstraintToNumBits (fromMask (2 ^ k - 1) : RangeConstraint p) with
  | some n => exact ⟨n, rfl⟩
  | none =>
    unfold rangeConstraintToNumBits at h1
    rw [List.find?_eq_none] at h1
    exact absurd (by simp) (h1 k (List.mem_range.2 (by omega)))

theorem otherChecks_total {id : ℕ} {l : RangeConstraints p V} (h : ∀ x ∈ l, BitRange x.2) :
    ∃ bs, otherChecks id l = some bs := by
  induction l with
  | nil => exact ⟨_, rfl⟩
  | cons x t ih =>
    obtain ⟨e, rc⟩ := x
    obtain ⟨n, hn⟩ := bits_found (h (e, rc) List.mem_cons_self)
    obtain ⟨bs, hb⟩ := ih fun x hx => h x (List.mem_cons_of_mem _ hx)
    rw [otherChecks, hn, hb]
    exact ⟨_, rfl⟩

theorem batchMake_some {m : BusMap} {rcs : RangeConstraints p V} (h : ∀ x ∈ rcs, BitRange x.2) :
    batchMakeRangeConstraints m rcs ≠ .ok none := by
  intro h0
  unfold batchMakeRangeConstraints at h0
  cases hts : m.tupleSizes with
  | error x => rw [hts] at h0; cases h0
  | ok s =>
  obtain ⟨s0, s1⟩ := s
  rw [hts] at h0
  simp only [bind, Except.bind] at h0
  cases htr : tupleRanges (p := p) s0 s1 with
  | error x => rw [htr] at h0; cases h0
  | ok r =>
  rw [htr] at h0
  simp only at h0
  split at h0
  · cases h0
  · have hrest : ∀ x ∈ (nonByteConstraints rcs).filter (fun x => decide (x.2 ≠ r.2)) ++
        ((nonByteConstraints rcs).filter (fun x => decide (x.2 = r.2))).drop (byteExpressions rcs).length,
        BitRange x.2 := by
      intro x hx
      have : x ∈ rcs := by
        rcases List.mem_append.1 hx with hx | hx
        · exact (List.mem_filter.1 (List.mem_filter.1 hx).1).1
        · exact (List.mem_filter.1 (List.mem_filter.1 (List.mem_of_mem_drop hx)).1).1
      exact h x this
    generalize (nonByteConstraints rcs).filter (fun x => decide (x.2 ≠ r.2)) ++
        ((nonByteConstraints rcs).filter (fun x => decide (x.2 = r.2))).drop (byteExpressions rcs).length =
        R at h0 hrest
    split at h0
    · cases h0
    · split at h0
      · cases h0
      · split at h0
        · cases h0
        · rename_i i3 _
          obtain ⟨bs, hbs⟩ := otherChecks_total (id := i3) hrest
          simp only [pure, Except.pure, Except.ok.injEq] at h0
          rw [hbs] at h0
          cases h0

theorem openVm_panicFreeOn {m : BusMap} (hm : m.Fits p) (hc : m.Complete) (hp : 2 ^ 26 ≤ p)
    (h32 : p ≤ 2 ^ 32) (memoryBusId : Option ℕ) (pcLookupId : ℕ) (bound : DegreeBound) (intBits : ℕ) :
    (openVmConfig m memoryBusId pcLookupId bound intBits : OptimizerConfig p V).PanicFreeOn
      (OpenVmShape m) where
  odd := lt_of_lt_of_le (by norm_num) hp
  small := le_trans h32 (by norm_num)
  closed := openVmShape_closed m
  handler := fun _ hb => openVm_accepts hm h32 hb
  pure := fun _ hb => openVm_pure hm (le_trans h32 (by norm_num)) hb
  make := fun rcs => batchMake_total hp hc rcs
  made := fun _ _ h => batchMake_fields hm h
  once := fun _ _ h b hb => (batchMake_shape h b hb).2.1

/-- Bit counts in satisfied range checks are small. -/
theorem satisfied_bitCounts {m : BusMap} (hm : m.Fits p) {s : ConstraintSystem p V} {σ : V → ZMod p}
    (hs : s.Satisfied (openVmBus m) σ) :
    SmallBitCounts m (s.bus.filter fun b => b.multiplicity = const 1) := by
  intro b hb id x n hid hpl hmem
  obtain ⟨hb, hmul⟩ := List.mem_filter.1 hb
  have hmul : b.multiplicity = const 1 := by simpa using hmul
  obtain ⟨t, h1, h2⟩ := hs.bus b hb (by
    show eval σ b.multiplicity ≠ 0
    rw [hmul, eval_const]
    exact one_ne_zero)
  have h1 : ((eval σ b.busId).val, t) ∈ m := h1
  rw [hid, eval_const] at h1
  rw [key_unique hm.keys h1 hmem] at h2
  obtain ⟨y, bits, h3, h4⟩ := h2
  have h3 : b.payload.map (eval σ) = [y, bits] := h3
  rw [hpl] at h3
  simp only [List.map_cons, List.map_nil, eval_const, List.cons.injEq, and_true] at h3
  rw [h3.2]
  exact h4.1

theorem exact_filter {rh : RangeHandler p V} {bus : Bus p} {w : ℕ} {bs : List (BusInteraction (GExpr p V))}
    (h : rh.Exact bus w (bs.filter fun b => b.multiplicity = const 1)) : rh.Exact bus w bs where
  half := h.half
  shape := fun b hb hm => h.shape b (List.mem_filter.2 ⟨hb, by simpa using hm⟩) hm
  pureExact := fun b hb hm => h.pureExact b (List.mem_filter.2 ⟨hb, by simpa using hm⟩) hm
  makeExact := h.makeExact

theorem openVm_exact_satisfied {m : BusMap} (hm : m.Fits p) (hc : m.Complete) (hp : 2 ^ 26 ≤ p)
    {s : ConstraintSystem p V} {σ : V → ZMod p} (hs : s.Satisfied (openVmBus m) σ) :
    (openVmRangeHandler m : RangeHandler p V).Exact (openVmBus m) (2 ^ 25) s.bus := by
  refine exact_filter (openVm_exact hm hp (fun id s0 s1 h => ?_) (satisfied_bitCounts hm hs))
  obtain ⟨rfl, k, hk, rfl⟩ := hc.sizes id s0 s1 h
  exact ⟨by norm_num, Nat.pow_le_pow_right (by norm_num) hk⟩

/-- All ranges found in a satisfied system can be checked. -/
theorem openVm_wanted {m : BusMap} (hm : m.Fits p) (hc : m.Complete) (hp : 2 ^ 26 ≤ p)
    {s : ConstraintSystem p V} {σ : V → ZMod p} (hs : s.Satisfied (openVmBus m) σ)
    {kept : List (BusInteraction (GExpr p V))} {rcs wanted : RangeConstraints p V}
    (h1 : collectPure (openVmRangeHandler m) s.bus = .ok (kept, rcs)) (h2 : ∀ x ∈ wanted, x ∈ mergeRanges rcs) :
    (openVmRangeHandler m : RangeHandler p V).make wanted ≠ .ok none := by
  have key : ∀ x ∈ rcs, BitRange x.2 := by
    intro x hx
    obtain ⟨b, hb, hmul, r, hr, hxr⟩ := (collectPure_spec h1).2.2 x hx
    obtain ⟨id, t, hid, hmem, hcases⟩ := pure_cases hr
    have h0 : (fromValue 0 : RangeConstraint p) = fromMask (2 ^ 0 - 1) := by
      unfold fromValue fromMask
      simp
    rcases hcases with ⟨y, z, w, rfl, hpl, rfl⟩ | ⟨y, z, op, rfl, hpl, rfl⟩ | ⟨y, n, rfl, hpl, rfl⟩ |
      ⟨y, z, s0, s1, rfl, hpl, p0, p1, rfl⟩
    · simp only [List.mem_cons, List.not_mem_nil, or_false] at hxr
      rcases hxr with rfl | rfl | rfl
      · exact ⟨8, by norm_num, rfl⟩
      · exact ⟨8, by norm_num, rfl⟩
      · exact ⟨0, by norm_num, h0⟩
    · simp only [List.mem_cons, List.not_mem_nil, or_false] at hxr
      rcases hxr with rfl | rfl | rfl
      · exact ⟨8, by norm_num, rfl⟩
      · exact ⟨0, by norm_num, h0⟩
      · exact ⟨1, by norm_num, rfl⟩
    · simp only [List.mem_cons, List.not_mem_nil, or_false] at hxr
      subst hxr
      have hn := satisfied_bitCounts hm hs b (List.mem_filter.2 ⟨hb, by simpa using hmul⟩) id y n hid hpl hmem
      exact ⟨n.val, hn, by rw [u64Mask_eq (by omega)]⟩
    · obtain ⟨rfl, k, hk, rfl⟩ := hc.sizes _ _ _ hmem
      have hkp : 2 ^ k ≤ p := le_trans (Nat.pow_le_pow_right (by norm_num) hk) (le_trans (by norm_num) hp)
      simp only [List.mem_cons, List.not_mem_nil, or_false] at hxr
      rcases hxr with rfl | rfl
      · exact ⟨8, by norm_num, fromRange_pow (le_trans (by norm_num) hp)⟩
      · exact ⟨k, hk, fromRange_pow hkp⟩
  refine batchMake_some fun x hx => ?_
  obtain ⟨⟨rc, hrc⟩, h3⟩ := mem_mergeRanges.1 (h2 x hx)
  rw [h3]
  unfold mergedRange
  refine merged_bits hp (fun r hr => ?_) fun hnil => ?_
  · obtain ⟨y, hy, rfl⟩ := List.mem_map.1 hr
    exact key y (List.mem_filter.1 hy).1
  · have : (x.1, rc) ∈ rcs.filter fun y => y.1 = x.1 := List.mem_filter.2 ⟨hrc, by simp⟩
    rw [List.map_eq_nil_iff.1 hnil] at this
    cases this

end Verif
