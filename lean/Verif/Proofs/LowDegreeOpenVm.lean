import Verif.Proofs.LowDegree
import Verif.Proofs.OpenVmPure
import Mathlib.Tactic.IntervalCases

/-!
# The low-degree optimizer with the OpenVM handlers
-/

set_option linter.unusedSectionVars false

namespace Verif

open RangeConstraint GExpr

variable {p : ℕ} {V : Type} [LinearOrder V] [Fact p.Prime]

/-! ### The interactions made -/

set_option maxHeartbeats 1000000 in
-- many generalizations
theorem batchMake_ids {m : BusMap} {rcs : RangeConstraints p V}
    {bs : List (BusInteraction (GExpr p V))}
    (h : batchMakeRangeConstraints m rcs = .ok (some bs)) :
    ∀ b ∈ bs, ∃ (id : ℕ) (t : OpenVmBusType), b.busId = const (id : ZMod p) ∧
      (id, BusType.other t) ∈ m := by
  unfold batchMakeRangeConstraints at h
  cases hts : m.tupleSizes with
  | error x => rw [hts] at h; cases h
  | ok s =>
  obtain ⟨s0, s1⟩ := s
  rw [hts] at h
  simp only [bind, Except.bind] at h
  cases htr : tupleRanges (p := p) s0 s1 with
  | error x => rw [htr] at h; cases h
  | ok r =>
  rw [htr] at h
  simp only at h
  split at h
  · cases h
  · generalize hB : byteExpressions rcs = B at h
    generalize hS : (nonByteConstraints rcs).filter (fun x => decide (x.2 = r.2)) = S at h
    generalize hR : (nonByteConstraints rcs).filter (fun x => decide (x.2 ≠ r.2)) = R at h
    generalize hT : (B.take (S.take B.length).length).zip ((S.take B.length).map Prod.fst) = T at h
    generalize hrest : R ++ S.drop B.length = rest at h
    generalize hby : B.drop (S.take B.length).length = by' at h
    cases h1 : busIdIfNeeded m (.other (.tupleRangeChecker s0 s1)) T with
    | error x => rw [h1] at h; cases h
    | ok i1 =>
    rw [h1] at h
    cases h2 : busIdIfNeeded m (.other .bitwiseLookup) by' with
    | error x => rw [h2] at h; cases h
    | ok i2 =>
    rw [h2] at h
    cases h3 : busIdIfNeeded m (.other .variableRangeChecker) rest with
    | error x => rw [h3] at h; cases h
    | ok i3 =>
    rw [h3] at h
    simp only [pure, Except.pure, Except.ok.injEq] at h
    cases ho : otherChecks i3 rest with
    | none => rw [ho] at h; cases h
    | some others =>
    rw [ho] at h
    simp only [Option.bind_some, Option.some.injEq] at h
    subst h
    intro b hb
    rcases List.mem_append.1 hb with hb | hb
    · rcases List.mem_append.1 hb with hb | hb
      · rcases busIdIfNeeded_ok h1 with h | h
        · rw [h] at hb; cases hb
        · obtain ⟨x, -, rfl⟩ := List.mem_map.1 hb
          exact ⟨_, _, rfl, h⟩
      · rcases busIdIfNeeded_ok h2 with h | h
        · rw [h] at hb; cases hb
        · exact ⟨_, _, (byteChecks_shape b hb).1, h⟩
    · rcases busIdIfNeeded_ok h3 with h | h
      · rw [h] at ho; cases ho; cases hb
      · exact ⟨_, _, (otherChecks_shape ho b hb).1, h⟩

theorem openVmStateful_lookup {m : BusMap} (hm : m.Fits p) {id : ℕ} {t : OpenVmBusType}
    (h : (id, BusType.other t) ∈ m) (h64 : id < 2 ^ 64) :
    openVmStateful m ((id : ℕ) : ZMod p) = false := by
  have hid : ((id : ℕ) : ZMod p).val = id := val_cast_of_lt (hm.ids _ h)
  unfold openVmStateful isStateful toU64
  rw [hid, if_pos h64]
  simp only [bind, Except.bind, BusMap.busType]
  rw [mapGet_of_mem hm.keys h]
  rfl

theorem openVm_makesExactly {m : BusMap} (hm : m.Fits p) (hp : 2 ^ 26 ≤ p)
    (h64 : ∀ x ∈ m, x.1 < 2 ^ 64) :
    (openVmRangeHandler m : RangeHandler p V).MakesExactly (openVmBus m) (openVmStateful m) where
  exact := by
    intro rcs made hsmall h σ
    simp only [allowsValue_iff]
    obtain ⟨rest, hrest, hiff⟩ := batchMake_iff (by omega) hm h σ
    rw [hiff]
    refine and_iff_left fun x hx => ?_
    obtain ⟨hx1, n, hn, hx2⟩ := hrest x hx
    refine ⟨n, ?_, hx2⟩
    by_contra hgt
    have h1 := hsmall x hx1
    rw [(rangeConstraintToNumBits_some hx2).2] at h1
    have h3 : 2 ^ 26 ≤ 2 ^ n := Nat.pow_le_pow_right (by norm_num) (by omega)
    unfold RangeConstraint.width at h1
    rw [rangeWidth_val] at h1
    unfold fromMask at h1
    have hlt := ZMod.val_lt (-1 : ZMod p)
    have h2 : (2 ^ n - 1).min (-1 : ZMod p).val < p :=
      lt_of_le_of_lt (Nat.min_le_right _ _) hlt
    simp only [val_cast_of_lt h2, ZMod.val_zero, Nat.zero_le, if_true] at h1
    have h4 : 2 ^ 16 ≤ (2 ^ n - 1).min (-1 : ZMod p).val :=
      Nat.le_min.2 ⟨by omega, by rw [val_neg_one]; omega⟩
    omega
  stateless := by
    intro rcs made h b hb
    obtain ⟨id, t, h1, h2⟩ := batchMake_ids h b hb
    exact ⟨_, h1, openVmStateful_lookup hm h2 (h64 _ h2)⟩
  wf := by
    intro rcs made hw h b hb e he
    obtain ⟨⟨id, h1⟩, h2, h3⟩ := batchMake_shape h b hb
    unfold BusInteraction.fields at he
    rcases List.mem_cons.1 he with rfl | he
    · rw [h1]; exact wf_const _
    rcases List.mem_cons.1 he with rfl | he
    · rw [h2]; exact wf_const _
    rcases h3 e he with ⟨rc, h⟩ | ⟨k, rfl⟩
    · exact hw _ h
    · exact wf_const _

/-! ### The decision of lookups -/

theorem inCyc_of_not_disjoint {r : RangeConstraint p} {a : ZMod p}
    (h : (fromValue a).isDisjoint r = false) : InCyc r.min r.max a := by
  unfold isDisjoint at h
  simp only [Bool.or_eq_false_iff] at h
  have h2 := h.2
  unfold intervalIntersection fromValue at h2
  simp only [fle, add_neg_cancel, ZMod.val_zero, le_refl, true_and] at h2
  unfold InCyc
  by_cases hc : (r.min + -a).val ≤ (r.max + -a).val
  · rw [if_pos hc] at h2
    simp only [Option.some_or] at h2
    split at h2
    · rename_i hh
      rw [val_fmax, val_fmin] at hh
      simp only [ZMod.val_zero, Nat.zero_max, Nat.zero_min, Nat.le_zero, ZMod.val_eq_zero,
        ← sub_eq_add_neg, sub_eq_zero] at hh
      rw [hh]
      simp
    · simp at h2
  · rw [if_neg hc] at h2
    simp only [Option.none_or, Nat.zero_le, if_true] at h2
    split at h2
    · rename_i hh
      rw [val_fmax, val_fmin] at hh
      simp only [ZMod.val_zero, Nat.max_zero, ← sub_eq_add_neg] at hh
      exact (le_min_iff.1 hh).2
    · simp at h2

theorem inCyc_fromValue {a v : ZMod p} (h : InCyc (fromValue a).min (fromValue a).max v) : v = a :=
  by
  unfold InCyc fromValue at h
  simp only [sub_self, ZMod.val_zero, Nat.le_zero, ZMod.val_eq_zero, sub_eq_zero] at h
  exact h

theorem inCyc_fromMask {k : ℕ} {v : ZMod p}
    (h : InCyc (fromMask k).min (fromMask k).max v) : v.val ≤ k := by
  unfold fromMask at h
  rw [inCyc_zero_iff] at h
  have hlt := ZMod.val_lt (-1 : ZMod p)
  have h2 : k.min (-1 : ZMod p).val < p := lt_of_le_of_lt (Nat.min_le_right _ _) hlt
  rw [val_cast_of_lt h2] at h
  exact h.trans (Nat.min_le_left _ _)

theorem fromValue_single (v : ZMod p) : (fromValue v).tryToSingleValue = some v := by
  unfold tryToSingleValue fromValue
  simp

theorem not_single {r : RangeConstraint p} (h0 : r.Allows 0) (h1 : r.Allows 1) :
    r.tryToSingleValue = none := by
  cases h : r.tryToSingleValue with
  | none => rfl
  | some v =>
    have e0 := (RangeConstraint.tryToSingleValue_eq_some h _).1 h0
    have e1 := (RangeConstraint.tryToSingleValue_eq_some h _).1 h1
    exact absurd (e0.trans e1.symm) zero_ne_one

/-- What is known about the payload if the handler has not rejected it. -/
structure Accepted (seen new : List (RangeConstraint p)) (out : ℕ) (values : List (ZMod p)) :
    Prop where
  length : seen.length = values.length
  length' : new.length = values.length
  known : ∀ (i : ℕ) r v, i ≠ out → seen[i]? = some r → values[i]? = some v → r = fromValue v
  interval : ∀ (i : ℕ) r v, new[i]? = some r → values[i]? = some v → InCyc r.min r.max v
  single : ∀ r, new[out]? = some r → ∃ v, r.tryToSingleValue = some v ∧ values[out]? = some v

theorem Accepted.bitwise (hp : 256 < p) {seen new : List (RangeConstraint p)} {out : ℕ}
    {values : List (ZMod p)} (ha : Accepted seen new out values)
    (hh : handleBitwiseLookup seen = .ok new)
    (hb : ∀ (i : ℕ) r v w, i < 2 → seen[i]? = some r → values[i]? = some v →
      i ≠ out ∨ r.tryToSingleValue = some w ∧ w = v → v.val < 256) :
    ∃ x y z op, values = [x, y, z, op] ∧ BitwiseTable x y z op := by
  have hone : (1 : ZMod p).val = 1 := ZMod.val_one p
  have hbyte : (byteConstraint : RangeConstraint p).tryToSingleValue = none :=
    not_single (byteConstraint_allows.2 (by rw [ZMod.val_zero]; omega))
      (byteConstraint_allows.2 (by rw [hone]; omega))
  have hbit : (fromMask 1 : RangeConstraint p).tryToSingleValue = none :=
    not_single ((fromMask_one_allows _).2 (Or.inl rfl)) ((fromMask_one_allows _).2 (Or.inr rfl))
  unfold handleBitwiseLookup at hh
  split at hh
  case h_2 => cases hh
  rename_i rx ry rz rop
  obtain ⟨x, y, z, op, rfl⟩ : ∃ x y z op, values = [x, y, z, op] := by
    have := ha.length
    match values, this with
    | [x, y, z, op], _ => exact ⟨x, y, z, op, rfl⟩
  refine ⟨x, y, z, op, rfl, ?_⟩
  have kx := ha.known 0 rx x
  have ky := ha.known 1 ry y
  have kop := ha.known 3 rop op
  simp only [List.getElem?_cons_zero, List.getElem?_cons_succ, forall_const] at kx ky kop
  split at hh
  · -- the operation is not known
    rename_i hop
    have hout : 3 = out := by
      by_contra hne
      rw [kop hne, fromValue_single] at hop
      cases hop
    cases hh
    obtain ⟨v, hv, -⟩ := ha.single (fromMask 1) (by rw [← hout]; rfl)
    rw [hbit] at hv
    cases hv
  · rename_i v hop
    cases hn : toU64 v with
    | error e => rw [hn] at hh; cases hh
    | ok n =>
      rw [hn] at hh
      simp only [bind, Except.bind] at hh
      have hvn := toU64_ok hn
      split at hh
      · cases hh
        have i0 := ha.interval 0 byteConstraint x rfl rfl
        have i1 := ha.interval 1 byteConstraint y rfl rfl
        have i2 := inCyc_fromValue (ha.interval 2 (fromValue 0) z rfl rfl)
        have i3 := inCyc_fromValue (ha.interval 3 (fromValue 0) op rfl rfl)
        have j0 := inCyc_fromMask i0
        have j1 := inCyc_fromMask i1
        exact ⟨by omega, by omega, Or.inl ⟨i3, i2⟩⟩
      · split at hh
        · split at hh
          · rename_i x' y' hx hy
            cases hax : toU64 x' with
            | error e => rw [hax] at hh; cases hh
            | ok a =>
              rw [hax] at hh
              simp only at hh
              cases hby : toU64 y' with
              | error e => rw [hby] at hh; cases hh
              | ok b =>
                rw [hby] at hh
                cases hh
                have i0 := inCyc_fromValue (ha.interval 0 _ x rfl rfl)
                have i1 := inCyc_fromValue (ha.interval 1 _ y rfl rfl)
                have i2 := inCyc_fromValue (ha.interval 2 _ z rfl rfl)
                have i3 := inCyc_fromValue (ha.interval 3 _ op rfl rfl)
                have b0 : x.val < 256 := hb 0 rx x x' (by omega) rfl rfl (Or.inr ⟨hx, i0.symm⟩)
                have b1 : y.val < 256 := hb 1 ry y y' (by omega) rfl rfl (Or.inr ⟨hy, i1.symm⟩)
                refine ⟨b0, b1, Or.inr ⟨i3, ?_⟩⟩
                rw [i2, i0, i1, toU64_ok hax, toU64_ok hby]
                rw [i0, toU64_ok hax] at b0
                rw [i1, toU64_ok hby] at b1
                exact val_cast_of_lt (lt_trans (Nat.xor_lt_two_pow (n := 8) b0 b1) hp)
          · rename_i hns
            cases hh
            have : 0 = out ∨ 1 = out := by
              by_contra hne
              push Not at hne
              refine hns x y ?_ ?_
              · rw [kx hne.1, fromValue_single]
              · rw [ky hne.2, fromValue_single]
            rcases this with h | h
            · obtain ⟨v, hv, -⟩ := ha.single byteConstraint (by rw [← h]; rfl)
              rw [hbyte] at hv; cases hv
            · obtain ⟨v, hv, -⟩ := ha.single byteConstraint (by rw [← h]; rfl)
              rw [hbyte] at hv; cases hv
        · cases hh

theorem Accepted.variableRange (hp : 256 < p) {seen new : List (RangeConstraint p)} {out : ℕ}
    {values : List (ZMod p)} (ha : Accepted seen new out values)
    (hh : handleVariableRangeChecker seen = .ok new) :
    ∃ x bits, values = [x, bits] ∧ VariableRangeTable x bits := by
  have hone : (1 : ZMod p).val = 1 := ZMod.val_one p
  have h25 : ((maxBits : ℕ) : ZMod p).val = 25 := val_cast_of_lt (by unfold maxBits; omega)
  have hbits : (fromRange 0 ((maxBits : ℕ) : ZMod p)).tryToSingleValue = none :=
    not_single ((fromRange_allows _ _ _).2 ((inCyc_zero_iff _ _).2 (by simp)))
      ((fromRange_allows _ _ _).2 ((inCyc_zero_iff _ _).2 (by rw [hone, h25]; omega)))
  unfold handleVariableRangeChecker at hh
  split at hh
  case h_2 => cases hh
  rename_i rx rbits
  obtain ⟨x, bits, rfl⟩ : ∃ x bits, values = [x, bits] := by
    have := ha.length
    match values, this with
    | [x, bits], _ => exact ⟨x, bits, rfl⟩
  refine ⟨x, bits, rfl, ?_⟩
  have kbits := ha.known 1 rbits bits
  simp only [List.getElem?_cons_zero, List.getElem?_cons_succ, forall_const] at kbits
  simp only at hh
  split at hh
  · rename_i hs
    have hout : 1 = out := by
      by_contra hne
      rw [kbits hne, fromValue_single] at hs
      cases hs
    cases hh
    obtain ⟨v, hv, -⟩ := ha.single (fromRange 0 ((maxBits : ℕ) : ZMod p)) (by rw [← hout]; rfl)
    rw [hbits] at hv
    cases hv
  · rename_i v hs
    cases hn : toU64 v with
    | error e => rw [hn] at hh; cases hh
    | ok n =>
      rw [hn] at hh
      simp only [bind, Except.bind] at hh
      have hvn := toU64_ok hn
      split at hh
      · rename_i hle
        unfold maxBits at hle
        cases hh
        have hv : v = bits := by
          by_cases hout : 1 = out
          · obtain ⟨w, hw, hw2⟩ := ha.single rbits (by rw [← hout]; rfl)
            rw [hs] at hw
            rw [← hout] at hw2
            exact (Option.some.inj hw).trans (Option.some.inj hw2).symm
          · rw [kbits hout, fromValue_single] at hs
            exact (Option.some.inj hs).symm
        have i0 := inCyc_fromMask (ha.interval 0 _ x rfl rfl)
        rw [u64Mask_eq (by omega)] at i0
        have hpos : 0 < 2 ^ n := by positivity
        unfold VariableRangeTable
        rw [← hv, hvn]
        exact ⟨by omega, by omega⟩
      · rename_i hgt
        unfold maxBits at hgt
        cases hh
        by_cases hout : 1 = out
        · obtain ⟨w, hw, -⟩ := ha.single (fromRange 0 ((maxBits : ℕ) : ZMod p))
            (by rw [← hout]; rfl)
          rw [hbits] at hw
          cases hw
        · rw [kbits hout, fromValue_single] at hs
          have hv := Option.some.inj hs
          have i1 : InCyc 0 ((maxBits : ℕ) : ZMod p) bits :=
            ha.interval 1 (fromRange 0 ((maxBits : ℕ) : ZMod p)) bits rfl rfl
          rw [inCyc_zero_iff, h25, hv, hvn] at i1
          omega

theorem Accepted.tupleRange {s0 s1 : ℕ} (h0 : 0 < s0 ∧ s0 ≤ p) (h1 : 0 < s1 ∧ s1 ≤ p)
    {seen new : List (RangeConstraint p)} {out : ℕ}
    {values : List (ZMod p)} (ha : Accepted seen new out values)
    (hh : handleTupleRangeChecker s0 s1 seen = .ok new) :
    ∃ x y, values = [x, y] ∧ TupleRangeTable s0 s1 x y := by
  unfold handleTupleRangeChecker at hh
  split at hh
  case h_2 => cases hh
  obtain ⟨x, y, rfl⟩ : ∃ x y, values = [x, y] := by
    have := ha.length
    match values, this with
    | [x, bits], _ => exact ⟨x, bits, rfl⟩
  refine ⟨x, y, rfl, ?_⟩
  unfold tupleRanges at hh
  rw [if_neg (by omega)] at hh
  cases hh
  exact ⟨(fromRange_size_allows h0.1 h0.2 x).1 ((fromRange_allows _ _ _).2
      (ha.interval 0 _ x rfl rfl)),
    (fromRange_size_allows h1.1 h1.2 y).1 ((fromRange_allows _ _ _).2
      (ha.interval 1 _ y rfl rfl))⟩

theorem zipEq_some {α β : Type} : ∀ {a : List α} {b : List β} {l : List (α × β)},
    zipEq a b = .ok l → a.length = b.length ∧ l = a.zip b := by
  intro a b l h
  unfold zipEq at h
  split at h
  · rename_i hl
    cases h
    exact ⟨hl, rfl⟩
  · cases h

theorem handleChecked_ok {h : Handler p} {r r' : BusInteraction (RangeConstraint p)}
    (ho : handleChecked h r = .ok (.ok r')) :
    h r = .ok r' ∧ r.payload.length = r'.payload.length ∧
      ∀ (i : ℕ) a b, r.payload[i]? = some a → r'.payload[i]? = some b → a.isDisjoint b = false := by
  unfold handleChecked at ho
  cases hr : h r with
  | error x => rw [hr] at ho; cases ho
  | ok new =>
    rw [hr] at ho
    simp only [bind, Except.bind] at ho
    cases hz : zipEq r.fields new.fields with
    | error x => rw [hz] at ho; cases ho
    | ok pairs =>
      rw [hz] at ho
      simp only at ho
      obtain ⟨hl, rfl⟩ := zipEq_some hz
      split at ho
      · cases ho
      · rename_i hany
        cases ho
        have hl' : r.payload.length = r'.payload.length := by
          simpa [BusInteraction.fields] using hl
        refine ⟨rfl, hl', fun i a b hi hi' => ?_⟩
        simp only [Bool.not_eq_true, List.any_eq_false] at hany
        have := hany (a, b) (by
          unfold BusInteraction.fields
          refine List.mem_cons_of_mem _ (List.mem_cons_of_mem _ ?_)
          refine List.mem_of_getElem? (i := i) ?_
          exact List.getElem?_zip_eq_some.2 ⟨hi, hi'⟩)
        simpa using this

theorem seenWith_getElem {solver : Solver p V} {b : BusInteraction (GExpr p V)} {out : ℕ}
    {values : List (ZMod p)} {i : ℕ} {r : RangeConstraint p}
    (h : (seenWith solver b out values).payload[i]? = some r) :
    ∃ e v, b.payload[i]? = some e ∧ values[i]? = some v ∧
      r = if i = out then rangeConstraint solver.get e else fromValue v := by
  unfold seenWith at h
  simp only [List.getElem?_map, List.getElem?_zipIdx, Nat.zero_add, Option.map_map,
    Option.map_eq_some_iff] at h
  obtain ⟨⟨e, v⟩, h1, h2⟩ := h
  rw [List.getElem?_zip_eq_some] at h1
  exact ⟨e, v, h1.1, h1.2, h2.symm⟩

theorem openVm_decides {m : BusMap} (hm : m.Fits p) (hp : 256 < p) {solver : Solver p V}
    {b : BusInteraction (GExpr p V)} {id : ZMod p} (hid : b.busId = const id)
    (hst : openVmStateful m id = false) (hk : OpenVmKnown m solver b) :
    (openVmHandler m).Decides (openVmBus m) solver b := by
  intro σ out values hlen hunk hvals r' rc v hh hrc hs hv
  obtain ⟨h1, h2, h3⟩ := handleChecked_ok hh
  have hseenlen : (seenWith solver b out values).payload.length = values.length := by
    simp [seenWith, hlen]
  -- the fields that are passed on
  have hacc : Accepted (seenWith solver b out values).payload r'.payload out values := by
    refine ⟨hseenlen, by rw [← h2, hseenlen], ?_, ?_, ?_⟩
    · intro i r w hi hr hw
      obtain ⟨e, w', -, hw', hr'⟩ := seenWith_getElem hr
      rw [hw, Option.some_inj] at hw'
      rw [hr', if_neg hi, hw']
    · intro i r w hr hw
      by_cases hi : i = out
      · rw [hi, hrc, Option.some_inj] at hr
        rw [hi, hv, Option.some_inj] at hw
        rw [← hr, ← hw]
        exact ((RangeConstraint.tryToSingleValue_eq_some hs v).2 rfl).1
      · have hlt : i < (seenWith solver b out values).payload.length := by
          rw [hseenlen]; exact (List.getElem?_eq_some_iff.1 hw).1
        have hd := h3 i _ r (List.getElem?_eq_getElem hlt) hr
        obtain ⟨e, w', -, hw', hr'⟩ := seenWith_getElem (List.getElem?_eq_getElem hlt)
        rw [hw, Option.some_inj] at hw'
        rw [hr', if_neg hi, ← hw'] at hd
        exact inCyc_of_not_disjoint hd
    · intro r hr
      rw [hrc, Option.some_inj] at hr
      exact ⟨v, by rw [← hr]; exact hs, hv⟩
  -- the handler does not look at the payload
  have hpass : r' = seenWith solver b out values → (∃ k, b.multiplicity = const k) ∨ False := by
    intro he
    rcases hk.multiplicity with h | h
    · exact Or.inl h
    · rw [he] at hrc
      obtain ⟨e, w, g1, -, g3⟩ := seenWith_getElem hrc
      rw [if_pos rfl] at g3
      have := h e (List.mem_of_getElem? g1) (hunk e g1)
      rw [g3, this] at hs
      cases hs
  have hidr : (seenWith solver b out values).busId.tryToSingleValue = some id := by
    unfold seenWith
    simp only
    rw [hid, rangeConstraint_number (k := id) (by rfl), fromValue_single]
  unfold openVmHandler at h1
  rw [hidr] at h1
  intro hne
  rw [hid, eval_const]
  rw [show (BusInteraction.mk (eval σ b.busId) (eval σ b.multiplicity) values).multiplicity =
    eval σ b.multiplicity from rfl] at hne
  cases hmul : (seenWith solver b out values).multiplicity.tryToSingleValue with
  | none =>
    rw [hmul] at h1
    simp only [Except.ok.injEq] at h1
    rcases hpass h1.symm with ⟨k, hk'⟩ | h
    · have : (seenWith solver b out values).multiplicity = fromValue k := by
        unfold seenWith
        simp only
        rw [hk', rangeConstraint_number (k := k) (by rfl)]
      rw [this, fromValue_single] at hmul
      cases hmul
    · exact h.elim
  | some mul =>
    rw [hmul] at h1
    simp only at h1
    split at h1
    · rename_i h0
      simp only [Except.ok.injEq] at h1
      rcases hpass h1.symm with ⟨k, hk'⟩ | h
      · have : (seenWith solver b out values).multiplicity = fromValue k := by
          unfold seenWith
          simp only
          rw [hk', rangeConstraint_number (k := k) (by rfl)]
        rw [this, fromValue_single, Option.some_inj] at hmul
        rw [hk', eval_const, hmul] at hne
        exact absurd h0 hne
      · exact h.elim
    · cases hu : toU64 id with
      | error x => rw [hu] at h1; cases h1
      | ok n =>
        rw [hu] at h1
        simp only [bind, Except.bind] at h1
        cases ht : m.busType n with
        | error x => rw [ht] at h1; cases h1
        | ok t =>
          rw [ht] at h1
          simp only at h1
          cases hp' : t.handle mul (seenWith solver b out values).payload with
          | error x => rw [hp'] at h1; cases h1
          | ok new =>
            rw [hp'] at h1
            cases h1
            simp only at hacc
            have hn : id.val = n := toU64_ok hu
            have hmem := busType_ok ht
            refine ⟨t, by rw [← hn] at hmem; exact hmem, ?_⟩
            cases t with
            | executionBridge => trivial
            | pcLookup => trivial
            | memory =>
              exfalso
              unfold openVmStateful isStateful at hst
              rw [hu] at hst
              simp only [bind, Except.bind] at hst
              rw [ht] at hst
              cases hst
            | other t =>
              cases t with
              | bitwiseLookup =>
                refine hacc.bitwise hp hp' ?_
                intro i r w w' hi hr hw hcase
                obtain ⟨e, w2, g1, g2, g3⟩ := seenWith_getElem hr
                rw [hw, Option.some_inj] at g2
                have hl4 : b.payload.length = 4 := by
                  rw [← hlen, ← hseenlen]
                  unfold BusType.handle handleBitwiseLookup at hp'
                  simp only at hp'
                  split at hp'
                  · rename_i heq; rw [heq]; rfl
                  · cases hp'
                obtain ⟨x, y, z, op, hpay⟩ : ∃ x y z op, b.payload = [x, y, z, op] := by
                  match b.payload, hl4 with
                  | [x, y, z, op], _ => exact ⟨x, y, z, op, rfl⟩
                have hexy : e = x ∨ e = y := by
                  rw [hpay] at g1
                  interval_cases i
                  · exact Or.inl (Option.some.inj g1).symm
                  · exact Or.inr (Option.some.inj g1).symm
                refine hk.bytes id x y z op hid (by rw [hn]; exact hmem) hpay e hexy w ?_
                by_cases hio : i = out
                · rcases hcase with hne | ⟨hc1, hc2⟩
                  · exact absurd hio hne
                  · right
                    rw [if_pos hio] at g3
                    rw [← g3, allowsValue_iff,
                      RangeConstraint.tryToSingleValue_eq_some hc1, hc2]
                · exact Or.inl (hvals i e w hio g1 hw)
              | variableRangeChecker => exact hacc.variableRange hp hp'
              | tupleRangeChecker s0 s1 =>
                obtain ⟨q1, q2, q3, q4⟩ := hm.sizes n s0 s1 hmem
                exact hacc.tupleRange ⟨q1, q2⟩ ⟨q3, q4⟩ hp'

end Verif
