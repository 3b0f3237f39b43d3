import Verif.Spec.OpenVm
import Verif.Proofs.ConstraintSystem
import Verif.Proofs.ItemDB

/-! # Proofs about the OpenVM bus interaction handler -/

set_option linter.unusedSectionVars false

namespace Verif

open RangeConstraint GExpr

variable {p : ℕ} [Fact p.Prime] {V : Type} [LinearOrder V]

theorem mapGet_mem {K W : Type} [DecidableEq K] {k : K} {w : W} {m : List (K × W)}
    (h : mapGet k m = some w) : (k, w) ∈ m := by
  induction m with
  | nil => simp [mapGet] at h
  | cons a t ih =>
    rw [mapGet] at h
    split at h
    · rename_i heq
      simp only [Option.some.injEq] at h
      simp [heq, ← h]
    · simp [ih h]

theorem mapGet_of_mem {K W : Type} [DecidableEq K] {k : K} {w : W} {m : List (K × W)}
    (hk : (m.map Prod.fst).Nodup) (h : (k, w) ∈ m) : mapGet k m = some w := by
  induction m with
  | nil => simp at h
  | cons a t ih =>
    rcases a with ⟨k', w'⟩
    simp only [List.map_cons, List.nodup_cons] at hk
    rw [mapGet]
    split
    · rename_i heq
      rcases List.mem_cons.1 h with h | h
      · cases h; rfl
      · exact absurd (heq ▸ List.mem_map_of_mem h) hk.1
    · rename_i hne
      rcases List.mem_cons.1 h with h | h
      · cases h; exact absurd rfl hne
      · exact ih hk.2 h

theorem busType_ok {m : BusMap} {id : ℕ} {t : BusType} (h : m.busType id = .ok t) :
    (id, t) ∈ m := by
  unfold BusMap.busType at h
  split at h
  · rename_i t' ht
    cases h; exact mapGet_mem ht
  · cases h

theorem key_unique {m : BusMap} (hm : (m.map Prod.fst).Nodup) {id : ℕ} {t t' : BusType}
    (h : (id, t) ∈ m) (h' : (id, t') ∈ m) : t = t' := by
  have h1 := mapGet_of_mem hm h
  rw [mapGet_of_mem hm h'] at h1
  exact (Option.some.inj h1).symm

theorem toU64_ok {v : ZMod p} {n : ℕ} (h : toU64 v = .ok n) : v.val = n := by
  unfold toU64 at h
  split at h
  · cases h; rfl
  · cases h

theorem toU32_ok {v : ZMod p} {n : ℕ} (h : toU32 v = .ok n) : v.val = n := by
  unfold toU32 at h
  split at h
  · cases h; rfl
  · cases h

theorem inMask_255 {n : ℕ} : InMask 0xff n ↔ n < 256 :=
  inMask_two_pow_sub_one_iff (k := 8)

theorem byteConstraint_allows {v : ZMod p} : (byteConstraint : RangeConstraint p).Allows v ↔
    v.val < 256 := by
  unfold byteConstraint
  rw [fromMask_allows, inMask_255]

theorem inMask_xor {a b x y : ℕ} (hx : InMask a x) (hy : InMask b y) :
    InMask (a ||| b) (x ^^^ y) := by
  intro i hi
  rw [Nat.testBit_xor] at hi
  rw [Nat.testBit_or]
  cases h1 : x.testBit i with
  | true => simp [hx i h1]
  | false =>
    rw [h1] at hi
    simp only [Bool.false_bne] at hi
    simp [hy i hi]

theorem u64Mask_eq {n : ℕ} (h : n < 64) : u64Mask n = 2 ^ n - 1 := by
  unfold u64Mask; rw [Nat.mod_eq_of_lt h]

theorem handleBitwiseLookup_spec {r r' : List (RangeConstraint p)}
    (h : handleBitwiseLookup r = .ok r') {x y z op : ZMod p} (ht : BitwiseTable x y z op)
    (hin : List.Forall₂ (fun (r : RangeConstraint p) (v : ZMod p) => r.Allows v) r [x, y, z, op]) :
    List.Forall₂ (fun (r : RangeConstraint p) (v : ZMod p) => r.Allows v) r' [x, y, z, op] := by
  have hp2 := (Fact.out : p.Prime).two_le
  have hone : (1 : ZMod p).val = 1 := val_one'
  obtain ⟨hx, hy, hop⟩ := ht
  have hz : z.val < 256 := by
    rcases hop with ⟨-, rfl⟩ | ⟨-, hz⟩
    · simp
    · rw [hz]; exact Nat.xor_lt_two_pow (n := 8) hx hy
  cases hin with
  | cons hrx hin => cases hin with
  | cons hry hin => cases hin with
  | cons hrz hin => cases hin with
  | cons hrop hin =>
  cases hin
  rename_i rx ry rz rop
  rw [handleBitwiseLookup] at h
  split at h
  · cases h
    refine .cons (byteConstraint_allows.2 hx) (.cons (byteConstraint_allows.2 hy)
      (.cons (byteConstraint_allows.2 hz) (.cons ?_ .nil)))
    rw [fromMask_allows]
    rcases hop with ⟨rfl, -⟩ | ⟨rfl, -⟩
    · rw [ZMod.val_zero]; exact InMask.zero _
    · rw [hone]; exact InMask.refl _
  · rename_i v hv
    have hopv := (tryToSingleValue_eq_some hv op).1 hrop
    cases hn : toU64 v with
    | error x => rw [hn] at h; cases h
    | ok n =>
      have hvn := toU64_ok hn
      rw [hn] at h
      simp only [bind, Except.bind] at h
      split at h
      · rename_i h0
        cases h
        have hop0 : op = 0 := by
          rw [hopv]; exact (ZMod.val_eq_zero v).1 (by omega)
        rcases hop with ⟨-, hz0⟩ | ⟨h1, -⟩
        · exact .cons (byteConstraint_allows.2 hx) (.cons (byteConstraint_allows.2 hy)
            (.cons ((fromValue_allows _ _).2 hz0) (.cons ((fromValue_allows _ _).2 hop0) .nil)))
        · rw [hop0] at h1
          have := congrArg ZMod.val h1
          rw [hone] at this; simp at this
      · split at h
        · rename_i h0 h1
          have hop1 : op = 1 := by
            rw [hopv]; apply ZMod.val_injective p; rw [hone]; omega
          have hxor : z.val = x.val ^^^ y.val := by
            rcases hop with ⟨h2, -⟩ | ⟨-, hz⟩
            · rw [hop1] at h2
              have := congrArg ZMod.val h2
              rw [hone] at this; simp at this
            · exact hz
          split at h
          · rename_i x' y' hx' hy'
            have ex := (tryToSingleValue_eq_some hx' x).1 hrx
            have ey := (tryToSingleValue_eq_some hy' y).1 hry
            cases ha : toU64 x' with
            | error x => rw [ha] at h; cases h
            | ok a =>
              rw [ha] at h
              cases hb : toU64 y' with
              | error x => rw [hb] at h; cases h
              | ok b =>
                rw [hb] at h
                cases h
                have := toU64_ok ha
                have := toU64_ok hb
                subst ex ey
                refine .cons ((fromValue_allows _ _).2 rfl) (.cons ((fromValue_allows _ _).2 rfl)
                  (.cons ((fromValue_allows _ _).2 ?_) (.cons ((fromValue_allows _ _).2 hop1) .nil)))
                rw [← ZMod.natCast_zmod_val z, hxor]
                congr 2
          · cases h
            refine .cons (byteConstraint_allows.2 hx) (.cons (byteConstraint_allows.2 hy)
              (.cons ?_ (.cons ((fromValue_allows _ _).2 hop1) .nil)))
            refine conjunction_allows ?_ (byteConstraint_allows.2 hz)
            rw [fromMask_allows, hxor]
            exact inMask_xor hrx.2 hry.2
        · cases h

theorem handleVariableRangeChecker_spec (hp : 25 < p) {r r' : List (RangeConstraint p)}
    (h : handleVariableRangeChecker r = .ok r') {x bits : ZMod p}
    (ht : VariableRangeTable x bits)
    (hin : List.Forall₂ (fun (r : RangeConstraint p) (v : ZMod p) => r.Allows v) r [x, bits]) :
    List.Forall₂ (fun (r : RangeConstraint p) (v : ZMod p) => r.Allows v) r' [x, bits] := by
  obtain ⟨hb, hx⟩ := ht
  cases hin with
  | cons hrx hin => cases hin with
  | cons hrb hin =>
  cases hin
  rename_i rx rb
  have hdef : List.Forall₂ (fun (r : RangeConstraint p) (v : ZMod p) => r.Allows v)
      [fromMask (u64Mask maxBits), fromRange 0 (maxBits : ZMod p)] [x, bits] := by
    refine .cons ?_ (.cons ?_ .nil)
    · rw [fromMask_allows, u64Mask_eq (by decide), inMask_two_pow_sub_one_iff]
      exact hx.trans_le (Nat.pow_le_pow_right (by norm_num) hb)
    · rw [fromRange_allows, inCyc_iff]
      have h25 : ((maxBits : ℕ) : ZMod p).val = 25 := val_cast_of_lt hp
      simp only [ZMod.val_zero, h25]
      simp [hb]
  rw [handleVariableRangeChecker] at h
  split at h
  · cases h; exact hdef
  · rename_i v hv
    have hbv := (tryToSingleValue_eq_some hv bits).1 hrb
    cases hn : toU64 v with
    | error x => rw [hn] at h; cases h
    | ok n =>
      have hvn := toU64_ok hn
      rw [hn] at h
      simp only [bind, Except.bind] at h
      split at h
      · rename_i hle
        cases h
        refine .cons ?_ (.cons hrb .nil)
        rw [fromMask_allows, u64Mask_eq (by unfold maxBits at hle; omega), inMask_two_pow_sub_one_iff,
          ← hvn, ← hbv]
        exact hx
      · cases h; exact hdef

theorem fromRange_size_allows {n : ℕ} (h0 : 0 < n) (hn : n ≤ p) (v : ZMod p) :
    (fromRange 0 ((n - 1 : ℕ) : ZMod p)).Allows v ↔ v.val < n := by
  rw [fromRange_allows, inCyc_iff, val_cast_of_lt (by omega)]
  simp only [ZMod.val_zero]
  simp
  omega

theorem tupleRanges_ok {s0 s1 : ℕ} {r : RangeConstraint p × RangeConstraint p}
    (h : tupleRanges s0 s1 = .ok r) : 0 < s0 ∧ 0 < s1 ∧
      r = (fromRange 0 ((s0 - 1 : ℕ) : ZMod p), fromRange 0 ((s1 - 1 : ℕ) : ZMod p)) := by
  unfold tupleRanges at h
  split at h
  · cases h
  · cases h
    exact ⟨by omega, by omega, rfl⟩

theorem handleTupleRangeChecker_spec {s0 s1 : ℕ} (h0 : s0 ≤ p) (h1 : s1 ≤ p)
    {r r' : List (RangeConstraint p)}
    (h : handleTupleRangeChecker s0 s1 r = .ok r') {x y : ZMod p}
    (ht : TupleRangeTable s0 s1 x y)
    (hin : List.Forall₂ (fun (r : RangeConstraint p) (v : ZMod p) => r.Allows v) r [x, y]) :
    List.Forall₂ (fun (r : RangeConstraint p) (v : ZMod p) => r.Allows v) r' [x, y] := by
  cases hin with
  | cons hrx hin => cases hin with
  | cons hry hin =>
  cases hin
  rw [handleTupleRangeChecker] at h
  cases hr : tupleRanges (p := p) s0 s1 with
  | error x => rw [hr] at h; cases h
  | ok r =>
    rw [hr] at h
    obtain ⟨p0, p1, rfl⟩ := tupleRanges_ok hr
    cases h
    exact .cons ((fromRange_size_allows p0 h0 _).2 ht.1)
      (.cons ((fromRange_size_allows p1 h1 _).2 ht.2) .nil)

theorem forall₂_const {α β : Type} {R : α → β → Prop} {a : α} :
    ∀ {l : List α} {m : List β}, l.length = m.length → (∀ b ∈ m, R a b) →
      List.Forall₂ R (l.map fun _ => a) m
  | [], [], _, _ => .nil
  | _ :: l, b :: m, hl, h => .cons (h b (by simp)) (forall₂_const (by simpa using hl)
      fun b hb => h b (by simp [hb]))

theorem forall₂_append_left {α β : Type} {R : α → β → Prop} :
    ∀ {l₁ l₂ : List α} {m : List β}, List.Forall₂ R (l₁ ++ l₂) m →
      ∃ m₁ m₂, List.Forall₂ R l₁ m₁ ∧ List.Forall₂ R l₂ m₂ ∧ m = m₁ ++ m₂
  | [], _, m, h => ⟨[], m, .nil, h, rfl⟩
  | _ :: _, _, _ :: _, .cons h1 h2 => by
    obtain ⟨m₁, m₂, h3, h4, rfl⟩ := forall₂_append_left h2
    exact ⟨_ :: m₁, m₂, .cons h1 h3, h4, rfl⟩

theorem handleMemory_spec {mult : ZMod p} {r r' : List (RangeConstraint p)}
    (h : handleMemory mult r = .ok r') {vs : List (ZMod p)} (ht : MemoryAssumption mult vs)
    (hin : List.Forall₂ (fun (r : RangeConstraint p) (v : ZMod p) => r.Allows v) r vs) :
    List.Forall₂ (fun (r : RangeConstraint p) (v : ZMod p) => r.Allows v) r' vs := by
  cases hin with
  | nil => cases h
  | @cons rs space r vs hs hin => cases hin with
  | nil => cases h
  | @cons rp pointer rest vs hpt hin =>
  rw [handleMemory] at h
  split at h
  · cases h
  · rename_i timestamp hlast
    have hrest : rest = rest.dropLast ++ [timestamp] := by
      have := List.dropLast_append_getLast? _ hlast
      exact this.symm
    simp only at h
    split at h
    · cases h
    · split at h
      · cases h; exact .cons hs (.cons hpt hin)
      · rename_i hmult
        split at h
        · cases h; exact .cons hs (.cons hpt hin)
        · rename_i v hv
          have hsv := (tryToSingleValue_eq_some hv space).1 hs
          cases hn : toU32 v with
          | error x => rw [hn] at h; cases h
          | ok n =>
            have hvn := toU32_ok hn
            rw [hn] at h
            simp only [bind, Except.bind] at h
            split at h
            · rename_i hspace
              cases h
              rw [hrest] at hin
              obtain ⟨data, ts, hdata, hts, rfl⟩ := forall₂_append_left hin
              obtain ⟨t, hts', rfl⟩ : ∃ t, timestamp.Allows t ∧ ts = [t] := by
                cases hts with
                | cons h1 h2 => cases h2; exact ⟨_, h1, rfl⟩
              have hd := ht space pointer data t rfl (not_not.1 hmult) (by rw [hsv, hvn]; exact hspace)
              refine .cons hs (.cons hpt ?_)
              refine List.rel_append ?_ (.cons hts' .nil)
              have hlen := hdata.length_eq
              split
              · rename_i hz
                refine forall₂_const hlen fun d hd' => (fromValue_allows _ _).2 ?_
                exact (hd d hd').2 (by rw [hsv, hvn]; exact hz.1)
                  ((tryToSingleValue_eq_some hz.2 pointer).1 hpt)
              · exact forall₂_const hlen fun d hd' => byteConstraint_allows.2 (hd d hd').1
            · cases h; exact .cons hs (.cons hpt hin)

theorem within_iff' {b : BusInteraction (ZMod p)} {r : BusInteraction (RangeConstraint p)} :
    b.Within r ↔ r.busId.Allows b.busId ∧ r.multiplicity.Allows b.multiplicity ∧
      List.Forall₂ (fun (r : RangeConstraint p) (v : ZMod p) => r.Allows v) r.payload b.payload := by
  have hflip : ∀ (l : List (ZMod p)) (m : List (RangeConstraint p)),
      List.Forall₂ (fun (x : ZMod p) (r : RangeConstraint p) => r.Allows x) l m ↔
        List.Forall₂ (fun (r : RangeConstraint p) (v : ZMod p) => r.Allows v) m l :=
    fun l m => ⟨List.Forall₂.flip, List.Forall₂.flip⟩
  rw [within_iff]
  unfold BusInteraction.fields
  simp only [List.forall₂_cons, hflip]

theorem handleBitwiseLookup_length {r r' : List (RangeConstraint p)}
    (h : handleBitwiseLookup r = .ok r') : r'.length = r.length := by
  unfold handleBitwiseLookup at h
  split at h
  · split at h
    · cases h; rfl
    · rename_i v hv
      cases hn : toU64 v with
      | error x => rw [hn] at h; cases h
      | ok n =>
        rw [hn] at h
        simp only [bind, Except.bind] at h
        split at h
        · cases h; rfl
        · split at h
          · split at h
            · rename_i x' y' _ _
              cases ha : toU64 x' with
              | error x => rw [ha] at h; cases h
              | ok a =>
                rw [ha] at h
                cases hb : toU64 y' with
                | error x => rw [hb] at h; cases h
                | ok b => rw [hb] at h; cases h; rfl
            · cases h; rfl
          · cases h
  · cases h

theorem handleVariableRangeChecker_length {r r' : List (RangeConstraint p)}
    (h : handleVariableRangeChecker r = .ok r') : r'.length = r.length := by
  unfold handleVariableRangeChecker at h
  split at h
  · simp only at h
    split at h
    · cases h; rfl
    · rename_i v hv
      cases hn : toU64 v with
      | error x => rw [hn] at h; cases h
      | ok n =>
        rw [hn] at h
        simp only [bind, Except.bind] at h
        split at h <;> cases h <;> rfl
  · cases h

theorem handleTupleRangeChecker_length {s0 s1 : ℕ} {r r' : List (RangeConstraint p)}
    (h : handleTupleRangeChecker s0 s1 r = .ok r') : r'.length = r.length := by
  unfold handleTupleRangeChecker at h
  split at h
  · cases hr : tupleRanges (p := p) s0 s1 with
    | error x => rw [hr] at h; cases h
    | ok r => rw [hr] at h; cases h; rfl
  · cases h

theorem handleMemory_length {mult : ZMod p} {r r' : List (RangeConstraint p)}
    (h : handleMemory mult r = .ok r') : r'.length = r.length := by
  unfold handleMemory at h
  split at h
  · split at h
    · cases h
    · rename_i timestamp hlast
      have hrest := List.dropLast_append_getLast? _ hlast
      simp only at h
      split at h
      · cases h
      · split at h
        · cases h; rfl
        · split at h
          · cases h; rfl
          · rename_i v hv
            cases hn : toU32 v with
            | error x => rw [hn] at h; cases h
            | ok n =>
              rw [hn] at h
              simp only [bind, Except.bind] at h
              split at h
              · cases h
                rw [← hrest]
                split <;> simp
              · cases h; rfl
  · cases h

theorem openVmHandler_sound (hp : 25 < p) {m : BusMap} (hm : m.Fits p) :
    (openVmHandler m).Sound (openVmBus m : Bus p) := by
  intro r r' h
  unfold openVmHandler at h
  split at h
  · rename_i busId mult hid hmult
    split at h
    · cases h; exact ⟨rfl, fun b _ h => h⟩
    · rename_i hne
      cases hn : toU64 busId with
      | error x => rw [hn] at h; cases h
      | ok id =>
      have hidn := toU64_ok hn
      rw [hn] at h
      simp only [bind, Except.bind] at h
      cases ht : m.busType id with
      | error x => rw [ht] at h; cases h
      | ok t =>
      have htm := busType_ok ht
      rw [ht] at h
      simp only at h
      cases hpl : t.handle mult r.payload with
      | error x => rw [hpl] at h; cases h
      | ok pl =>
      rw [hpl] at h
      cases h
      refine ⟨?_, fun b hb hw => ?_⟩
      · unfold BusType.handle at hpl
        split at hpl
        · cases hpl; rfl
        · cases hpl; rfl
        · exact handleMemory_length hpl
        · exact handleBitwiseLookup_length hpl
        · exact handleVariableRangeChecker_length hpl
        · exact handleTupleRangeChecker_length hpl
      · rw [within_iff'] at hw ⊢
        obtain ⟨h1, h2, h3⟩ := hw
        refine ⟨h1, h2, ?_⟩
        have e1 := (tryToSingleValue_eq_some hid _).1 h1
        have e2 := (tryToSingleValue_eq_some hmult _).1 h2
        obtain ⟨t', ht', had⟩ := hb (by rw [e2]; exact hne)
        rw [e1, hidn] at ht'
        have := key_unique hm.keys ht' htm
        subst this
        simp only
        unfold BusType.handle at hpl
        split at hpl
        · cases hpl; exact h3
        · cases hpl; exact h3
        · rw [e2] at had; exact handleMemory_spec hpl had h3
        · obtain ⟨x, y, z, op, hpay, had⟩ := had
          rw [hpay] at h3 ⊢
          exact handleBitwiseLookup_spec hpl had h3
        · obtain ⟨x, bits, hpay, had⟩ := had
          rw [hpay] at h3 ⊢
          exact handleVariableRangeChecker_spec hp hpl had h3
        · obtain ⟨x, y, hpay, had⟩ := had
          have hs := hm.sizes _ _ _ htm
          rw [hpay] at h3 ⊢
          exact handleTupleRangeChecker_spec hs.2.1 hs.2.2.2 hpl had h3
  · cases h; exact ⟨rfl, fun b _ h => h⟩

end Verif
