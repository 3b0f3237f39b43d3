import Verif.Proofs.OpenVm
import Verif.Proofs.RangeExact
import Verif.Spec.OpenVmSearch

/-!
# The OpenVM handler reports violations by known values (C106)
-/

namespace Verif
namespace OpenVmRejects

open RangeConstraint

set_option linter.unusedSectionVars false

variable {p : ℕ} [Fact p.Prime]

theorem inCyc_of_not_disjoint {v : ZMod p} {r : RangeConstraint p}
    (h : (fromValue v).isDisjoint r = false) : InCyc r.min r.max v := by
  by_contra hn
  have : intervalIntersection ((fromValue v).min, (fromValue v : RangeConstraint p).max)
      (r.min, r.max) = none := by
    rw [intersection_none]
    rintro w ⟨h1, h2⟩
    have : w = v := by
      unfold InCyc fromValue at h1
      simp only [sub_self, ZMod.val_zero, Nat.le_zero, ZMod.val_eq_zero] at h1
      exact sub_eq_zero.1 h1
    exact hn (this ▸ h2)
  unfold isDisjoint at h
  rw [this] at h
  simp at h

theorem le_of_mask {v : ZMod p} {mask : ℕ}
    (h : (fromValue v).isDisjoint (fromMask mask) = false) : v.val ≤ mask := by
  have h1 := inCyc_of_not_disjoint h
  unfold InCyc fromMask at h1
  simp only [sub_zero] at h1
  have hlt : Nat.min mask (-1 : ZMod p).val < p :=
    lt_of_le_of_lt (Nat.min_le_right _ _) (ZMod.val_lt _)
  rw [ZMod.val_natCast_of_lt hlt] at h1
  exact h1.trans (Nat.min_le_left _ _)

theorem eq_of_value {v w : ZMod p} (h : (fromValue v).isDisjoint (fromValue w) = false) : v = w := by
  have h1 := inCyc_of_not_disjoint h
  unfold InCyc fromValue at h1
  simp only [sub_self, ZMod.val_zero, Nat.le_zero, ZMod.val_eq_zero] at h1
  exact sub_eq_zero.1 h1

theorem lt_of_size {v : ZMod p} {n : ℕ} (h0 : 0 < n) (hn : n ≤ p)
    (h : (fromValue v).isDisjoint (fromRange 0 ((n - 1 : ℕ) : ZMod p)) = false) : v.val < n :=
  (fromRange_size_allows h0 hn v).1 ((fromRange_allows _ _ _).2 (inCyc_of_not_disjoint h))

theorem single_fromValue (v : ZMod p) : (fromValue v).tryToSingleValue = some v := by
  simp [tryToSingleValue, fromValue]

theorem memory_rejects {mult : ZMod p} {vs : List (ZMod p)} {r : List (RangeConstraint p)}
    (hh : handleMemory mult (vs.map fromValue) = .ok r)
    (hd : ∀ x ∈ vs.zip r, (fromValue x.1).isDisjoint x.2 = false) : MemoryAssumption mult vs := by
  rintro space pointer data timestamp rfl hmult hspace d hdm
  simp only [List.map_cons, List.map_append, List.map_nil, handleMemory, List.getLast?_append,
    List.getLast?_singleton, Option.some_or, List.dropLast_concat, hmult, ne_eq, not_true, if_false,
    single_fromValue] at hh
  split at hh
  · cases hh
  · cases hs : toU32 space with
    | error x => rw [hs] at hh; cases hh
    | ok n =>
      have hn := toU32_ok hs
      rw [hs] at hh
      simp only [bind, Except.bind, pure, Except.pure, ← hn, if_pos hspace, Except.ok.injEq] at hh
      subst hh
      have hz : ∀ q : RangeConstraint p, ∀ data : List (ZMod p), d ∈ data →
          ∀ tail : List (ZMod p), ∀ tail' : List (RangeConstraint p),
          (d, q) ∈ (data ++ tail).zip (((data.map fromValue).map fun _ => q) ++ tail') := by
        intro q data hdm tail tail'
        induction data with
        | nil => cases hdm
        | cons a t ih =>
          simp only [List.map_cons, List.cons_append, List.zip_cons_cons, List.mem_cons]
          rcases List.mem_cons.1 hdm with rfl | hm
          · exact Or.inl rfl
          · exact Or.inr (ih hm)
      split at hd
      · rename_i hc
        have := hd (d, fromValue 0) (by
          simp only [List.cons_append, List.nil_append, List.zip_cons_cons, List.mem_cons]
          exact Or.inr (Or.inr (hz _ data hdm _ _)))
        have h0 := eq_of_value this
        simp only at h0
        subst h0
        exact ⟨by rw [ZMod.val_zero]; omega, fun _ _ => rfl⟩
      · rename_i hc
        have := hd (d, byteConstraint) (by
          simp only [List.cons_append, List.nil_append, List.zip_cons_cons, List.mem_cons]
          exact Or.inr (Or.inr (hz _ data hdm _ _)))
        have h0 := le_of_mask this
        simp only at h0
        refine ⟨by omega, fun h1 h2 => ?_⟩
        exact absurd ⟨h1, by rw [h2]⟩ hc

theorem rejects (hp : 255 < p) {m : BusMap} (hm : m.Fits p) :
    (openVmHandler m).Rejects (fun b : BusInteraction (ZMod p) => openVmBus m b ∨ XorOfLarge m b) := by
  intro b hb r hr
  apply hb
  by_cases hmult : b.multiplicity = 0
  · exact Or.inl fun h => absurd hmult h
  unfold handleChecked at hr
  cases hh : openVmHandler m (b.map fromValue) with
  | error x => rw [hh] at hr; cases hr
  | ok new =>
    rw [hh] at hr
    simp only [bind, Except.bind] at hr
    cases hz : zipEq (b.map fromValue).fields new.fields with
    | error x => rw [hz] at hr; cases hr
    | ok pairs =>
      rw [hz] at hr
      simp only at hr
      split at hr
      · cases hr
      rename_i hany
      have hz' : pairs = (b.map fromValue).fields.zip new.fields := by
        unfold zipEq at hz
        split at hz
        · cases hz; rfl
        · cases hz
      simp only [List.any_eq_true, not_exists, not_and, Bool.not_eq_true] at hany
      unfold openVmHandler at hh
      simp only [BusInteraction.map, single_fromValue, if_neg hmult] at hh
      cases hn : toU64 b.busId with
      | error x => rw [hn] at hh; cases hh
      | ok id =>
        have hidn := toU64_ok hn
        rw [hn] at hh
        simp only [bind, Except.bind] at hh
        cases ht : m.busType id with
        | error x => rw [ht] at hh; cases hh
        | ok t =>
          have htm := busType_ok ht
          rw [← hidn] at htm
          rw [ht] at hh
          simp only at hh
          cases hpl : t.handle b.multiplicity (b.payload.map fromValue) with
          | error x => rw [hpl] at hh; cases hh
          | ok pl =>
            rw [hpl] at hh
            cases hh
            have hd : ∀ x ∈ b.payload.zip pl, (fromValue x.1).isDisjoint x.2 = false := by
              intro x hx
              refine hany (fromValue x.1, x.2) ?_
              rw [hz']
              simp only [BusInteraction.fields, BusInteraction.map, List.zip_cons_cons,
                List.mem_cons]
              refine Or.inr (Or.inr ?_)
              rw [List.zip_map_left]
              exact List.mem_map.2 ⟨x, hx, rfl⟩
            have adm : t.Admits b.multiplicity b.payload ∨ XorOfLarge m b → 
                openVmBus m b ∨ XorOfLarge m b := by
              rintro (h | h)
              · exact Or.inl fun _ => ⟨t, htm, h⟩
              · exact Or.inr h
            apply adm
            unfold BusType.handle at hpl
            unfold BusType.Admits
            split at hpl
            · exact Or.inl trivial
            · exact Or.inl trivial
            · exact Or.inl (memory_rejects hpl hd)
            · unfold handleBitwiseLookup at hpl
              rcases hpay : b.payload with _ | ⟨x, _ | ⟨y, _ | ⟨z, _ | ⟨op, _ | ⟨w, l⟩⟩⟩⟩⟩
              all_goals simp only [hpay, List.map_cons, List.map_nil] at hpl
              all_goals try cases hpl
              simp only [single_fromValue] at hpl
              cases hop : toU64 op with
              | error x => rw [hop] at hpl; cases hpl
              | ok n =>
                have hopn := toU64_ok hop
                rw [hop] at hpl
                simp only [bind, Except.bind, pure, Except.pure] at hpl
                split at hpl
                · rename_i hn0
                  cases hpl
                  rw [hpay] at hd
                  simp only [List.zip_cons_cons, List.zip_nil_right, List.mem_cons, List.not_mem_nil,
                    or_false, forall_eq_or_imp, forall_eq] at hd
                  obtain ⟨d1, d2, d3, d4⟩ := hd
                  have := le_of_mask d1
                  have := le_of_mask d2
                  exact Or.inl ⟨x, y, z, op, rfl, by omega, by omega,
                    Or.inl ⟨eq_of_value d4, eq_of_value d3⟩⟩
                · split at hpl
                  · rename_i hn1
                    cases hx : toU64 x with
                    | error e => rw [hx] at hpl; cases hpl
                    | ok a =>
                      cases hy : toU64 y with
                      | error e => rw [hx, hy] at hpl; cases hpl
                      | ok c =>
                        rw [hx, hy] at hpl
                        cases hpl
                        rw [hpay] at hd
                        simp only [List.zip_cons_cons, List.zip_nil_right, List.mem_cons,
                          List.not_mem_nil, or_false, forall_eq_or_imp, forall_eq] at hd
                        obtain ⟨-, -, d3, d4⟩ := hd
                        have e3 := eq_of_value d3
                        have e4 := eq_of_value d4
                        rw [← toU64_ok hx, ← toU64_ok hy] at e3
                        subst e4
                        by_cases hsmall : x.val < 256 ∧ y.val < 256
                        · refine Or.inl ⟨x, y, z, 1, rfl, hsmall.1, hsmall.2, Or.inr ⟨rfl, ?_⟩⟩
                          rw [e3, ZMod.val_natCast_of_lt]
                          have : x.val ^^^ y.val < 2 ^ 8 := Nat.xor_lt_two_pow hsmall.1 hsmall.2
                          omega
                        · exact Or.inr ⟨x, y, z, htm, hpay, e3, by omega⟩
                  · cases hpl
            · left
              unfold handleVariableRangeChecker at hpl
              rcases hpay : b.payload with _ | ⟨x, _ | ⟨bits, _ | ⟨w, l⟩⟩⟩
              all_goals simp only [hpay, List.map_cons, List.map_nil] at hpl
              all_goals try cases hpl
              simp only [single_fromValue] at hpl
              cases hop : toU64 bits with
              | error x => rw [hop] at hpl; cases hpl
              | ok n =>
                have hopn := toU64_ok hop
                rw [hop] at hpl
                simp only [bind, Except.bind, pure, Except.pure] at hpl
                rw [hpay] at hd
                split at hpl
                · rename_i hle
                  cases hpl
                  simp only [List.zip_cons_cons, List.zip_nil_right, List.mem_cons,
                    List.not_mem_nil, or_false, forall_eq_or_imp, forall_eq] at hd
                  have h1 := le_of_mask hd.1
                  unfold maxBits at hle
                  rw [u64Mask_eq (by omega)] at h1
                  have := Nat.two_pow_pos n
                  exact ⟨x, bits, rfl, by omega, by rw [hopn]; omega⟩
                · rename_i hle
                  cases hpl
                  simp only [List.zip_cons_cons, List.zip_nil_right, List.mem_cons,
                    List.not_mem_nil, or_false, forall_eq_or_imp, forall_eq] at hd
                  have h1 := lt_of_size (n := 26) (by omega) (by omega) hd.2
                  unfold maxBits at hle
                  omega
            · rename_i s0 s1
              left
              unfold handleTupleRangeChecker at hpl
              rcases hpay : b.payload with _ | ⟨x, _ | ⟨y, _ | ⟨w, l⟩⟩⟩
              all_goals simp only [hpay, List.map_cons, List.map_nil] at hpl
              all_goals try cases hpl
              cases htr : (tupleRanges s0 s1 : Except Panic (RangeConstraint p × RangeConstraint p)) with
              | error x => rw [htr] at hpl; cases hpl
              | ok q =>
                rw [htr] at hpl
                obtain ⟨-, -, rfl⟩ := tupleRanges_ok htr
                cases hpl
                obtain ⟨z0, l0, z1, l1⟩ := hm.sizes _ _ _ htm
                rw [hpay] at hd
                simp only [List.zip_cons_cons, List.zip_nil_right, List.mem_cons,
                  List.not_mem_nil, or_false, forall_eq_or_imp, forall_eq] at hd
                exact ⟨x, y, rfl, lt_of_size z0 l0 hd.1, lt_of_size z1 l1 hd.2⟩

end OpenVmRejects
end Verif
