import Verif.Proofs.OpenVm

/-! # Proofs: pure range constraints and making range constraints -/

set_option linter.unusedSectionVars false

namespace Verif

open RangeConstraint GExpr

variable {p : ℕ} [Fact p.Prime] {V : Type} [LinearOrder V]

/-- All range constraints of the list hold. -/
theorem eval_of_tryToNumber {σ : V → ZMod p} {e : GExpr p V} {k : ZMod p}
    (h : e.tryToNumber = some k) : eval σ e = k := by
  unfold tryToNumber tryToKnown at h
  split at h
  · cases h
    exact eval_const σ k
  · cases h

theorem admits_of_mem {m : BusMap} (hm : (m.map Prod.fst).Nodup) {b : BusInteraction (ZMod p)}
    {t : BusType} (h : (b.busId.val, t) ∈ m) (h0 : b.multiplicity ≠ 0) :
    openVmBus m b ↔ t.Admits b.multiplicity b.payload := by
  constructor
  · intro hb
    obtain ⟨t', h1, h2⟩ := hb h0
    rw [key_unique hm h h1]; exact h2
  · exact fun ha _ => ⟨t, h, ha⟩

theorem bitwise_op_zero (x y z : ZMod p) :
    BitwiseTable x y z 0 ↔ x.val < 256 ∧ y.val < 256 ∧ z = 0 := by
  unfold BitwiseTable
  have : (0 : ZMod p) ≠ 1 := zero_ne_one
  simp [this]

theorem bitwise_same (x z op : ZMod p) :
    BitwiseTable x x z op ↔ x.val < 256 ∧ z = 0 ∧ (op = 0 ∨ op = 1) := by
  unfold BitwiseTable
  simp only [Nat.xor_self, ZMod.val_eq_zero]
  tauto

theorem inMask_one {n : ℕ} : InMask 1 n ↔ n = 0 ∨ n = 1 := by
  have := inMask_two_pow_sub_one_iff (k := 1) (v := n)
  simp only [pow_one] at this
  rw [this]; omega

theorem fromMask_one_allows (v : ZMod p) : (fromMask 1 : RangeConstraint p).Allows v ↔
    v = 0 ∨ v = 1 := by
  rw [fromMask_allows, inMask_one, ZMod.val_eq_zero]
  constructor
  · rintro (h | h)
    · exact Or.inl h
    · right; apply ZMod.val_injective p; rw [val_one', h]
  · rintro (h | rfl)
    · exact Or.inl h
    · exact Or.inr val_one'

theorem fromMask_255_allows (v : ZMod p) : (fromMask 0xff : RangeConstraint p).Allows v ↔
    v.val < 256 := byteConstraint_allows

/-- The constant number of bits, if the interaction is one with the variable range checker. -/
theorem pure_iff {m : BusMap} (hm : m.Fits p) {b : BusInteraction (GExpr p V)}
    {rcs : RangeConstraints p V} (h : pureRangeConstraints m b = .ok (some rcs))
    {σ : V → ZMod p} (h0 : eval σ b.multiplicity ≠ 0)
    (hbits : ∀ x bits, b.payload = [x, bits] →
      ((eval σ b.busId).val, BusType.other .variableRangeChecker) ∈ m → (eval σ bits).val ≤ 25) :
    openVmBus m (b.evalAt σ) ↔ ∀ x ∈ rcs, x.2.Allows (eval σ x.1) := by
  unfold pureRangeConstraints at h
  split at h
  · cases h
  · rename_i busId hid
    have hid' := eval_of_tryToNumber (σ := σ) hid
    cases hn : toU64 busId with
    | error x => rw [hn] at h; cases h
    | ok id =>
    have hidn := toU64_ok hn
    rw [hn] at h
    simp only [bind, Except.bind] at h
    cases ht : m.busType id with
    | error x => rw [ht] at h; cases h
    | ok t =>
    have htm := busType_ok ht
    have htm' : ((b.evalAt σ).busId.val, t) ∈ m := by
      show ((eval σ b.busId).val, t) ∈ m
      rw [hid', hidn]; exact htm
    rw [admits_of_mem hm.keys htm' h0]
    rw [ht] at h
    simp only at h
    split at h
    · cases h
    · cases h
    · cases h
    · unfold bitwisePure at h
      split at h
      · rename_i x y z op hpay
        have hev : (b.evalAt σ).payload = [eval σ x, eval σ y, eval σ z, eval σ op] := by
          show b.payload.map _ = _
          rw [hpay]; rfl
        have hA : BusType.Admits (b.evalAt σ).multiplicity (b.evalAt σ).payload
            (.other .bitwiseLookup) ↔
            BitwiseTable (eval σ x) (eval σ y) (eval σ z) (eval σ op) := by
          rw [BusType.Admits, hev]
          constructor
          · rintro ⟨_, _, _, _, heq, h⟩
            simp only [List.cons.injEq, and_true] at heq
            obtain ⟨rfl, rfl, rfl, rfl⟩ := heq
            exact h
          · exact fun h => ⟨_, _, _, _, rfl, h⟩
        rw [hA]
        split at h
        · rename_i hop
          cases h
          rw [eval_of_tryToNumber hop, bitwise_op_zero]
          simp only [List.mem_cons, List.not_mem_nil, or_false, forall_eq_or_imp, forall_eq,
            fromMask_255_allows, fromValue_allows]
        · split at h
          · rename_i hxy
            cases h
            rw [← hxy, bitwise_same]
            simp only [List.mem_cons, List.not_mem_nil, or_false, forall_eq_or_imp, forall_eq,
              fromMask_255_allows, fromValue_allows, fromMask_one_allows]
          · cases h
      · cases h
    · unfold variableRangeCheckerPure at h
      split at h
      · rename_i x bits hpay
        split at h
        · cases h
        · rename_i v hv
          cases hnv : toU64 v with
          | error x => rw [hnv] at h; cases h
          | ok n =>
          rw [hnv] at h
          cases h
          have hnv' := toU64_ok hnv
          have hb := hbits x bits hpay htm'
          have heb := eval_of_tryToNumber (σ := σ) hv
          rw [heb, hnv'] at hb
          have hev : (b.evalAt σ).payload = [eval σ x, eval σ bits] := by
            show b.payload.map _ = _
            rw [hpay]; rfl
          have hA : BusType.Admits (b.evalAt σ).multiplicity (b.evalAt σ).payload
              (.other .variableRangeChecker) ↔ VariableRangeTable (eval σ x) (eval σ bits) := by
            rw [BusType.Admits, hev]
            constructor
            · rintro ⟨_, _, heq, h⟩
              simp only [List.cons.injEq, and_true] at heq
              obtain ⟨rfl, rfl⟩ := heq
              exact h
            · exact fun h => ⟨_, _, rfl, h⟩
          rw [hA, VariableRangeTable, heb, hnv']
          simp only [List.mem_singleton, forall_eq]
          rw [fromMask_allows, u64Mask_eq (by omega), inMask_two_pow_sub_one_iff]
          exact ⟨fun h => h.2, fun h => ⟨hb, h⟩⟩
      · cases h
    · rename_i s0 s1
      unfold tupleRangeCheckerPure at h
      split at h
      · rename_i x y hpay
        cases hr : tupleRanges (p := p) s0 s1 with
        | error x => rw [hr] at h; cases h
        | ok r =>
        rw [hr] at h
        obtain ⟨p0, p1, rfl⟩ := tupleRanges_ok hr
        cases h
        have hs := hm.sizes _ _ _ htm
        have hev : (b.evalAt σ).payload = [eval σ x, eval σ y] := by
          show b.payload.map _ = _
          rw [hpay]; rfl
        have hA : BusType.Admits (b.evalAt σ).multiplicity (b.evalAt σ).payload
            (.other (.tupleRangeChecker s0 s1)) ↔ TupleRangeTable s0 s1 (eval σ x) (eval σ y) := by
          rw [BusType.Admits, hev]
          constructor
          · rintro ⟨_, _, heq, h⟩
            simp only [List.cons.injEq, and_true] at heq
            obtain ⟨rfl, rfl⟩ := heq
            exact h
          · exact fun h => ⟨_, _, rfl, h⟩
        rw [hA, TupleRangeTable]
        simp only [List.mem_cons, List.not_mem_nil, or_false, forall_eq_or_imp, forall_eq,
          fromRange_size_allows p0 hs.2.1, fromRange_size_allows p1 hs.2.2.2]
      · cases h

/-! ### Making range constraints -/

theorem getBusId_ok {m : BusMap} {t : BusType} {id : ℕ} (h : m.getBusId t = .ok id) :
    (id, t) ∈ m := by
  induction m with
  | nil => cases h
  | cons a m ih =>
    rcases a with ⟨i, t'⟩
    rw [BusMap.getBusId] at h
    split at h
    · rename_i heq
      cases h; simp [heq]
    · simp [ih h]

theorem busIdIfNeeded_ok {α : Type} {m : BusMap} {t : BusType} {l : List α} {id : ℕ}
    (h : busIdIfNeeded m t l = .ok id) : l = [] ∨ (id, t) ∈ m := by
  unfold busIdIfNeeded at h
  split at h
  · rename_i he
    exact Or.inl (List.isEmpty_iff.1 he)
  · exact Or.inr (getBusId_ok h)

theorem rangeConstraintToNumBits_some {rc : RangeConstraint p} {n : ℕ}
    (h : rangeConstraintToNumBits rc = some n) : n < 30 ∧ rc = fromMask (2 ^ n - 1) := by
  unfold rangeConstraintToNumBits at h
  have h1 := List.mem_of_find?_eq_some h
  have h2 := List.find?_some h
  exact ⟨by simpa using h1, by simpa using h2⟩

theorem evalAt_check {σ : V → ZMod p} {id : ℕ} {es : List (GExpr p V)} :
    (⟨const (id : ZMod p), const 1, es⟩ : BusInteraction (GExpr p V)).evalAt σ =
      ⟨(id : ZMod p), 1, es.map (eval σ)⟩ := by
  unfold BusInteraction.evalAt
  simp only [eval_const]

/-- A check sent to a bus of the map. -/
theorem check_iff {m : BusMap} (hm : m.Fits p) {id : ℕ} {t : BusType} (h : (id, t) ∈ m)
    {σ : V → ZMod p} {es : List (GExpr p V)} :
    openVmBus m ((⟨const (id : ZMod p), const 1, es⟩ : BusInteraction (GExpr p V)).evalAt σ) ↔
      t.Admits 1 (es.map (eval σ)) := by
  rw [evalAt_check]
  refine admits_of_mem hm.keys ?_ one_ne_zero
  simp only
  rw [val_cast_of_lt (hm.ids _ h)]
  exact h

theorem tupleChecks_iff {m : BusMap} (hm : m.Fits p) {s0 s1 id : ℕ}
    (h : (id, BusType.other (.tupleRangeChecker s0 s1)) ∈ m) {σ : V → ZMod p}
    {l : List (GExpr p V × GExpr p V)} :
    (∀ b ∈ tupleChecks id l, openVmBus m (b.evalAt σ)) ↔
      ∀ x ∈ l, (eval σ x.1).val < s0 ∧ (eval σ x.2).val < s1 := by
  unfold tupleChecks
  simp only [List.mem_map, forall_exists_index, and_imp, forall_apply_eq_imp_iff₂]
  refine forall_congr' fun x => imp_congr_right fun _ => ?_
  rw [check_iff hm h, BusType.Admits]
  constructor
  · rintro ⟨_, _, heq, h⟩
    simp only [List.map_cons, List.map_nil, List.cons.injEq, and_true] at heq
    obtain ⟨rfl, rfl⟩ := heq
    exact h
  · exact fun h => ⟨_, _, rfl, h⟩

theorem byteChecks_iff {m : BusMap} (hm : m.Fits p) {id : ℕ}
    (h : (id, BusType.other .bitwiseLookup) ∈ m) {σ : V → ZMod p} : ∀ {l : List (GExpr p V)},
    (∀ b ∈ byteChecks id l, openVmBus m (b.evalAt σ)) ↔ ∀ x ∈ l, (eval σ x).val < 256
  | [] => by simp [byteChecks]
  | [x] => by
    simp only [byteChecks, List.mem_singleton, forall_eq]
    rw [check_iff hm h, BusType.Admits]
    constructor
    · rintro ⟨_, _, _, _, heq, h⟩
      simp only [List.map_cons, List.map_nil, List.cons.injEq, and_true] at heq
      obtain ⟨rfl, rfl, rfl, rfl⟩ := heq
      exact h.1
    · intro h
      refine ⟨_, _, _, _, rfl, ?_⟩
      simp only [eval_const]
      rw [bitwise_op_zero]
      exact ⟨h, by simp, rfl⟩
  | x :: y :: t => by
    have ih := byteChecks_iff hm h (σ := σ) (l := t)
    simp only [byteChecks, List.mem_cons, forall_eq_or_imp, ih]
    rw [check_iff hm h, BusType.Admits, ← and_assoc]
    refine and_congr_left fun _ => ?_
    constructor
    · rintro ⟨_, _, _, _, heq, h⟩
      simp only [List.map_cons, List.map_nil, List.cons.injEq, and_true] at heq
      obtain ⟨rfl, rfl, rfl, rfl⟩ := heq
      exact ⟨h.1, h.2.1⟩
    · intro h
      refine ⟨_, _, _, _, rfl, ?_⟩
      simp only [eval_const]
      rw [bitwise_op_zero]
      exact ⟨h.1, h.2, rfl⟩

/-- Range checks by number of bits: they imply what was requested, and follow from it if at most 25
bits are requested. -/
theorem otherChecks_iff {m : BusMap} (hm : m.Fits p) (hp : 30 < p) {id : ℕ} {σ : V → ZMod p} :
    ∀ {l : RangeConstraints p V} {bs : List (BusInteraction (GExpr p V))},
    (l = [] ∨ (id, BusType.other .variableRangeChecker) ∈ m) →
    otherChecks id l = some bs →
    ((∀ b ∈ bs, openVmBus m (b.evalAt σ)) ↔
      ∀ x ∈ l, x.2.Allows (eval σ x.1) ∧ ∃ n, n ≤ 25 ∧ rangeConstraintToNumBits x.2 = some n)
  | [], bs, _, h => by cases h; simp
  | (e, rc) :: t, bs, hid', h => by
    have hid : (id, BusType.other .variableRangeChecker) ∈ m := by
      rcases hid' with h | h
      · simp at h
      · exact h
    clear hid'
    rw [otherChecks] at h
    cases hn : rangeConstraintToNumBits rc with
    | none => rw [hn] at h; cases h
    | some n =>
      rw [hn] at h
      cases hr : otherChecks id t with
      | none => rw [hr] at h; cases h
      | some rest =>
        rw [hr] at h
        cases h
        obtain ⟨hn30, rfl⟩ := rangeConstraintToNumBits_some hn
        have ih := otherChecks_iff hm hp (σ := σ) (Or.inr hid) hr
        simp only [List.mem_cons, forall_eq_or_imp, ih]
        refine and_congr_left fun _ => ?_
        rw [check_iff hm hid, BusType.Admits]
        have hval : ((n : ℕ) : ZMod p).val = n := val_cast_of_lt (by omega)
        simp only [hn, Option.some.injEq]
        rw [fromMask_allows, inMask_two_pow_sub_one_iff]
        constructor
        · rintro ⟨_, _, heq, h⟩
          simp only [List.map_cons, List.map_nil, List.cons.injEq, and_true, eval_const] at heq
          obtain ⟨rfl, rfl⟩ := heq
          rw [VariableRangeTable, hval] at h
          exact ⟨h.2, n, h.1, rfl⟩
        · rintro ⟨h, k, hk, rfl⟩
          refine ⟨_, _, rfl, ?_⟩
          simp only [eval_const]
          rw [VariableRangeTable, hval]
          exact ⟨hk, h⟩

theorem otherChecks_bits {id : ℕ} :
    ∀ {l : RangeConstraints p V} {bs : List (BusInteraction (GExpr p V))},
    otherChecks id l = some bs →
    ∀ x ∈ l, ∃ n, n < 30 ∧ rangeConstraintToNumBits x.2 = some n
  | [], _, _ => by simp
  | (e, rc) :: t, bs, h => by
    rw [otherChecks] at h
    cases hn : rangeConstraintToNumBits rc with
    | none => rw [hn] at h; cases h
    | some n =>
      rw [hn] at h
      cases hr : otherChecks id t with
      | none => rw [hr] at h; cases h
      | some rest =>
        intro x hx
        rcases List.mem_cons.1 hx with rfl | hx
        · exact ⟨n, (rangeConstraintToNumBits_some hn).1, hn⟩
        · exact otherChecks_bits hr x hx

theorem otherChecks_shape {id : ℕ} :
    ∀ {l : RangeConstraints p V} {bs : List (BusInteraction (GExpr p V))},
    otherChecks id l = some bs →
    ∀ b ∈ bs, b.busId = const (id : ZMod p) ∧ b.multiplicity = const 1 ∧
      ∀ e ∈ b.payload, (∃ rc, (e, rc) ∈ l) ∨ ∃ k, e = const k
  | [], _, h => by cases h; simp
  | (e, rc) :: t, bs, h => by
    rw [otherChecks] at h
    cases hn : rangeConstraintToNumBits rc with
    | none => rw [hn] at h; cases h
    | some n =>
      rw [hn] at h
      cases hr : otherChecks id t with
      | none => rw [hr] at h; cases h
      | some rest =>
        rw [hr] at h
        cases h
        intro b hb
        rcases List.mem_cons.1 hb with rfl | hb
        · refine ⟨rfl, rfl, ?_⟩
          simp only [List.mem_cons, List.not_mem_nil, or_false]
          rintro e' (rfl | rfl)
          · exact Or.inl ⟨rc, Or.inl rfl⟩
          · exact Or.inr ⟨_, rfl⟩
        · obtain ⟨h1, h2, h3⟩ := otherChecks_shape hr b hb
          refine ⟨h1, h2, fun e' he' => ?_⟩
          rcases h3 e' he' with ⟨rc', h⟩ | h
          · exact Or.inl ⟨rc', List.mem_cons_of_mem _ h⟩
          · exact Or.inr h

theorem byteChecks_shape {id : ℕ} : ∀ {l : List (GExpr p V)},
    ∀ b ∈ byteChecks id l, b.busId = const (id : ZMod p) ∧ b.multiplicity = const 1 ∧
      ∀ e ∈ b.payload, e ∈ l ∨ ∃ k, e = const k
  | [] => by simp [byteChecks]
  | [x] => by
    intro b hb
    simp only [byteChecks, List.mem_singleton] at hb
    subst hb
    refine ⟨rfl, rfl, ?_⟩
    simp only [List.mem_cons, List.not_mem_nil, or_false]
    rintro e (rfl | rfl | rfl | rfl)
    · exact Or.inl rfl
    all_goals exact Or.inr ⟨_, rfl⟩
  | x :: y :: t => by
    intro b hb
    rw [byteChecks] at hb
    rcases List.mem_cons.1 hb with rfl | hb
    · refine ⟨rfl, rfl, ?_⟩
      simp only [List.mem_cons, List.not_mem_nil, or_false]
      rintro e (rfl | rfl | rfl | rfl)
      · exact Or.inl (Or.inl rfl)
      · exact Or.inl (Or.inr (Or.inl rfl))
      all_goals exact Or.inr ⟨_, rfl⟩
    · obtain ⟨h1, h2, h3⟩ := byteChecks_shape b hb
      refine ⟨h1, h2, fun e he => ?_⟩
      rcases h3 e he with h | h
      · exact Or.inl (List.mem_cons_of_mem _ (List.mem_cons_of_mem _ h))
      · exact Or.inr h

theorem mem_byteExpressions {rcs : RangeConstraints p V} {e : GExpr p V} :
    e ∈ byteExpressions rcs ↔ (e, fromMask 0xff) ∈ rcs ∧
      rangeConstraintToNumBits (fromMask 0xff : RangeConstraint p) = some 8 := by
  unfold byteExpressions
  simp only [List.mem_reverse, List.mem_dedup, List.mem_map, List.mem_filter, decide_eq_true_eq,
    Prod.exists, exists_and_right, exists_eq_right]
  constructor
  · rintro ⟨rc, h1, h2⟩
    obtain ⟨-, rfl⟩ := rangeConstraintToNumBits_some h2
    exact ⟨h1, h2⟩
  · rintro ⟨h1, h2⟩
    exact ⟨_, h1, h2⟩

theorem forall_zip {α β : Type} {P : α → Prop} {Q : β → Prop} :
    ∀ {l : List α} {m : List β}, l.length = m.length →
      ((∀ x ∈ l.zip m, P x.1 ∧ Q x.2) ↔ (∀ a ∈ l, P a) ∧ ∀ b ∈ m, Q b)
  | [], [], _ => by simp
  | a :: l, b :: m, h => by
    have ih := forall_zip (P := P) (Q := Q) (l := l) (m := m) (by simpa using h)
    simp only [List.zip_cons_cons, List.mem_cons, forall_eq_or_imp, ih]
    tauto

theorem forall_take_drop {α : Type} {P : α → Prop} (l : List α) (n : ℕ) :
    (∀ a ∈ l, P a) ↔ (∀ a ∈ l.take n, P a) ∧ ∀ a ∈ l.drop n, P a := by
  conv_lhs => rw [← List.take_append_drop n l]
  simp only [List.mem_append, or_imp, forall_and]

theorem size_of_byte (hp : 256 < p) {s0 : ℕ} (h0 : 0 < s0) (hs : s0 ≤ p)
    (h : (fromRange 0 ((s0 - 1 : ℕ) : ZMod p) : RangeConstraint p) = fromMask 0xff) : s0 = 256 := by
  have key : ∀ v : ZMod p, v.val < s0 ↔ v.val < 256 := by
    intro v
    rw [← fromRange_size_allows h0 hs, h, fromMask_255_allows]
  by_contra hne
  rcases Nat.lt_or_gt_of_ne hne with hlt | hgt
  · have := key (s0 : ZMod p)
    rw [val_cast_of_lt (by omega)] at this
    omega
  · have := key ((256 : ℕ) : ZMod p)
    rw [val_cast_of_lt hp] at this
    omega

theorem and_rearrange {a b c d e f g : Prop} :
    ((a ∧ b) ∧ c) ∧ (d ∧ e) ∧ f ∧ g ↔ ((a ∧ c) ∧ d ∧ b ∧ e) ∧ f ∧ g := by
  tauto

set_option maxHeartbeats 1000000 in
-- a long proof with many generalized terms
theorem batchMake_iff (hp : 256 < p) {m : BusMap} (hm : m.Fits p) {rcs : RangeConstraints p V}
    {bs : List (BusInteraction (GExpr p V))}
    (h : batchMakeRangeConstraints m rcs = .ok (some bs)) (σ : V → ZMod p) :
    ∃ rest : RangeConstraints p V,
    (∀ x ∈ rest, x ∈ rcs ∧ ∃ n, n < 30 ∧ rangeConstraintToNumBits x.2 = some n) ∧
    ((∀ b ∈ bs, openVmBus m (b.evalAt σ)) ↔
      (∀ x ∈ rcs, x.2.Allows (eval σ x.1)) ∧
        ∀ x ∈ rest, ∃ n, n ≤ 25 ∧ rangeConstraintToNumBits x.2 = some n) := by
  unfold batchMakeRangeConstraints at h
  cases hts : m.tupleSizes with
  | error x => rw [hts] at h; cases h
  | ok s =>
  obtain ⟨s0, s1⟩ := s
  rw [hts] at h
  simp only [bind, Except.bind] at h
  cases htr : tupleRanges (p := p) s0 s1 with
  | error x => rw [htr] at h; cases h
  | ok r =>
  obtain ⟨p0, p1, rfl⟩ := tupleRanges_ok htr
  rw [htr] at h
  simp only at h
  have hsz : ∃ id, (id, BusType.other (.tupleRangeChecker s0 s1)) ∈ m := by
    clear h hm
    induction m with
    | nil => cases hts
    | cons a m ih =>
      unfold BusMap.tupleSizes at hts
      split at hts
      · cases hts
      · rename_i id a b t heq
        cases hts
        simp only [List.cons.injEq] at heq
        exact ⟨id, by rw [heq.1]; simp⟩
      · rename_i id m' hno heq
        simp only [List.cons.injEq] at heq
        obtain ⟨rfl, rfl⟩ := heq
        obtain ⟨id, hid⟩ := ih hts
        exact ⟨id, by simp [hid]⟩
  obtain ⟨id0, hid0⟩ := hsz
  have hs := hm.sizes _ _ _ hid0
  split at h
  · cases h
  · rename_i hbyte
    have h256 : s0 = 256 := size_of_byte hp p0 hs.2.1 (not_not.1 hbyte)
    generalize hB : byteExpressions rcs = B at h
    generalize hr1 : (fromRange 0 ((s1 - 1 : ℕ) : ZMod p) : RangeConstraint p) = r1 at h
    generalize hS : (nonByteConstraints rcs).filter (fun x => decide (x.2 = r1)) = S at h
    generalize hR : (nonByteConstraints rcs).filter (fun x => decide (x.2 ≠ r1)) = R at h
    generalize hT : (B.take (S.take B.length).length).zip ((S.take B.length).map Prod.fst) = T at h
    generalize hrest : R ++ S.drop B.length = rest at h
    generalize hby : B.drop (S.take B.length).length = by' at h
    cases h1 : busIdIfNeeded m (.other (.tupleRangeChecker s0 s1)) T with
    | error x => rw [h1] at h; cases h
    | ok i1 =>
    rw [h1] at h
    cases h2 : busIdIfNeeded m (.other .bitwiseLookup) by' with
    | error x => rw [h2] at h; cases h
    | ok i2 =>
    rw [h2] at h
    cases h3 : busIdIfNeeded m (.other .variableRangeChecker) rest with
    | error x => rw [h3] at h; cases h
    | ok i3 =>
    rw [h3] at h
    simp only [pure, Except.pure, Except.ok.injEq] at h
    cases ho : otherChecks i3 rest with
    | none => rw [ho] at h; cases h
    | some others =>
    rw [ho] at h
    simp only [Option.bind_some, Option.some.injEq] at h
    subst h
    have hmem : ∀ x, x ∈ nonByteConstraints rcs → x ∈ rcs := fun x hx => (List.mem_filter.1 hx).1
    refine ⟨rest, ?_, ?_⟩
    · intro x hx
      refine ⟨?_, otherChecks_bits ho x hx⟩
      rw [← hrest] at hx
      rcases List.mem_append.1 hx with hx | hx
      · rw [← hR] at hx; exact hmem x (List.mem_filter.1 hx).1
      · have := List.mem_of_mem_drop hx
        rw [← hS] at this; exact hmem x (List.mem_filter.1 this).1
    · have e1 : (∀ b ∈ tupleChecks i1 T, openVmBus m (b.evalAt σ)) ↔
          ∀ x ∈ T, (eval σ x.1).val < s0 ∧ (eval σ x.2).val < s1 := by
        rcases busIdIfNeeded_ok h1 with h | h
        · rw [h]; simp [tupleChecks]
        · exact tupleChecks_iff hm h
      have e2 : (∀ b ∈ byteChecks i2 by', openVmBus m (b.evalAt σ)) ↔
          ∀ x ∈ by', (eval σ x).val < 256 := by
        rcases busIdIfNeeded_ok h2 with h | h
        · rw [h]; simp [byteChecks]
        · exact byteChecks_iff hm h
      have e3 := otherChecks_iff hm (by omega) (σ := σ) (busIdIfNeeded_ok h3) ho
      have hlen : (B.take (S.take B.length).length).length =
          ((S.take B.length).map Prod.fst).length := by
        simp only [List.length_take, List.length_map]; omega
      rw [← hT, forall_zip (P := fun e : GExpr p V => (eval σ e).val < s0)
        (Q := fun e : GExpr p V => (eval σ e).val < s1) hlen, hT] at e1
      have hbytes := forall_take_drop (P := fun e : GExpr p V => (eval σ e).val < 256) B
        (S.take B.length).length
      have hsec := forall_take_drop (P := fun x : GExpr p V × RangeConstraint p =>
        x.2.Allows (eval σ x.1)) S B.length
      have hSr : ∀ x ∈ S, x.2 = r1 := by
        intro x hx; rw [← hS] at hx; simpa using (List.mem_filter.1 hx).2
      have hsec1 : (∀ x ∈ S.take B.length, x.2.Allows (eval σ x.1)) ↔
          ∀ e ∈ (S.take B.length).map Prod.fst, (eval σ e).val < s1 := by
        simp only [List.mem_map, forall_exists_index, and_imp, forall_apply_eq_imp_iff₂]
        refine forall_congr' fun x => imp_congr_right fun hx => ?_
        rw [hSr x (List.mem_of_mem_take hx), ← hr1, fromRange_size_allows p1 hs.2.2.2]
      have hall : (∀ x ∈ rcs, x.2.Allows (eval σ x.1)) ↔
          (∀ e ∈ B, (eval σ e).val < 256) ∧ (∀ x ∈ R, x.2.Allows (eval σ x.1)) ∧
            ∀ x ∈ S, x.2.Allows (eval σ x.1) := by
        have hmemRS : ∀ x, x ∈ nonByteConstraints rcs ↔ x ∈ R ∨ x ∈ S := by
          intro x
          rw [← hR, ← hS]
          simp only [List.mem_filter, decide_eq_true_eq, ne_eq]
          by_cases hx : x.2 = r1 <;> simp [hx]
        constructor
        · intro h
          refine ⟨fun e he => ?_, fun x hx => h x (hmem x ((hmemRS x).2 (Or.inl hx))),
            fun x hx => h x (hmem x ((hmemRS x).2 (Or.inr hx)))⟩
          rw [← hB, mem_byteExpressions] at he
          exact (fromMask_255_allows _).1 (h _ he.1)
        · rintro ⟨ha, hb, hc⟩ x hx
          by_cases hx8 : rangeConstraintToNumBits x.2 = some 8
          · obtain ⟨-, hrc⟩ := rangeConstraintToNumBits_some hx8
            have hx' : x.1 ∈ B := by
              rw [← hB, mem_byteExpressions]
              have h255 : (2 ^ 8 - 1 : ℕ) = 0xff := by norm_num
              rw [h255] at hrc
              rw [← hrc]
              exact ⟨hx, hx8⟩
            rw [hrc]
            exact (fromMask_255_allows _).2 (ha _ hx')
          · rcases (hmemRS x).1 (List.mem_filter.2 ⟨hx, by simpa using hx8⟩) with h | h
            · exact hb x h
            · exact hc x h
      simp only [List.mem_append, or_imp, forall_and]
      rw [e1, e2, e3, hall, hbytes, hsec, hsec1, h256, ← hby, ← hrest]
      simp only [List.mem_append, or_imp, forall_and]
      exact and_rearrange

set_option maxHeartbeats 1000000 in
-- as above
/-- All interactions made have multiplicity one, and the payload consists of requested expressions
and constants. -/
theorem batchMake_shape {m : BusMap} {rcs : RangeConstraints p V}
    {bs : List (BusInteraction (GExpr p V))}
    (h : batchMakeRangeConstraints m rcs = .ok (some bs)) :
    ∀ b ∈ bs, (∃ id : ℕ, b.busId = const (id : ZMod p)) ∧ b.multiplicity = const 1 ∧
      ∀ e ∈ b.payload, (∃ rc, (e, rc) ∈ rcs) ∨ ∃ k, e = const k := by
  unfold batchMakeRangeConstraints at h
  cases hts : m.tupleSizes with
  | error x => rw [hts] at h; cases h
  | ok s =>
  obtain ⟨s0, s1⟩ := s
  rw [hts] at h
  simp only [bind, Except.bind] at h
  cases htr : tupleRanges (p := p) s0 s1 with
  | error x => rw [htr] at h; cases h
  | ok r =>
  rw [htr] at h
  simp only at h
  split at h
  · cases h
  · generalize hB : byteExpressions rcs = B at h
    generalize hS : (nonByteConstraints rcs).filter (fun x => decide (x.2 = r.2)) = S at h
    generalize hR : (nonByteConstraints rcs).filter (fun x => decide (x.2 ≠ r.2)) = R at h
    generalize hT : (B.take (S.take B.length).length).zip ((S.take B.length).map Prod.fst) = T at h
    generalize hrest : R ++ S.drop B.length = rest at h
    generalize hby : B.drop (S.take B.length).length = by' at h
    cases h1 : busIdIfNeeded m (.other (.tupleRangeChecker s0 s1)) T with
    | error x => rw [h1] at h; cases h
    | ok i1 =>
    rw [h1] at h
    cases h2 : busIdIfNeeded m (.other .bitwiseLookup) by' with
    | error x => rw [h2] at h; cases h
    | ok i2 =>
    rw [h2] at h
    cases h3 : busIdIfNeeded m (.other .variableRangeChecker) rest with
    | error x => rw [h3] at h; cases h
    | ok i3 =>
    rw [h3] at h
    simp only [pure, Except.pure, Except.ok.injEq] at h
    cases ho : otherChecks i3 rest with
    | none => rw [ho] at h; cases h
    | some others =>
    rw [ho] at h
    simp only [Option.bind_some, Option.some.injEq] at h
    subst h
    have hmem : ∀ x, x ∈ nonByteConstraints rcs → x ∈ rcs := fun x hx => (List.mem_filter.1 hx).1
    have hBm : ∀ e ∈ B, ∃ rc, (e, rc) ∈ rcs := by
      intro e he
      rw [← hB, mem_byteExpressions] at he
      exact ⟨_, he.1⟩
    have hSm : ∀ x ∈ S, x ∈ rcs := by
      intro x hx
      rw [← hS] at hx
      exact hmem x (List.mem_filter.1 hx).1
    have hRm : ∀ x ∈ rest, x ∈ rcs := by
      intro x hx
      rw [← hrest] at hx
      rcases List.mem_append.1 hx with hx | hx
      · rw [← hR] at hx; exact hmem x (List.mem_filter.1 hx).1
      · exact hSm x (List.mem_of_mem_drop hx)
    intro b hb
    rcases List.mem_append.1 hb with hb | hb
    · rcases List.mem_append.1 hb with hb | hb
      · obtain ⟨⟨x, y⟩, hxy, rfl⟩ := List.mem_map.1 hb
        refine ⟨⟨_, rfl⟩, rfl, ?_⟩
        rw [← hT] at hxy
        have hx := hBm x (List.mem_of_mem_take (List.of_mem_zip hxy).1)
        obtain ⟨z, hz, hzy⟩ := List.mem_map.1 (List.of_mem_zip hxy).2
        have hy := hSm z (List.mem_of_mem_take hz)
        simp only [List.mem_cons, List.not_mem_nil, or_false]
        rintro e (rfl | rfl)
        · exact Or.inl hx
        · exact Or.inl ⟨z.2, by rw [← hzy]; exact hy⟩
      · obtain ⟨a1, a2, a3⟩ := byteChecks_shape b hb
        refine ⟨⟨_, a1⟩, a2, fun e he => ?_⟩
        rcases a3 e he with h | h
        · rw [← hby] at h
          exact Or.inl (hBm e (List.mem_of_mem_drop h))
        · exact Or.inr h
    · obtain ⟨a1, a2, a3⟩ := otherChecks_shape ho b hb
      refine ⟨⟨_, a1⟩, a2, fun e he => ?_⟩
      rcases a3 e he with ⟨rc, h⟩ | h
      · exact Or.inl ⟨rc, hRm _ h⟩
      · exact Or.inr h

end Verif
