import Mathlib.Tactic.IntervalCases
import Verif.Spec.Hints
import Verif.Proofs.K256Arith

/-!
# The hints as the guest sees them
-/

namespace Verif

open FieldElement10x26

theorem check_true [Decidable True] : check True = some () := check_of trivial

theorem leWord_eq {b : ℕ → ℕ} {i w : ℕ} (h : HoldsWord b i w) : leWord b i = w := by
  obtain ⟨hw, h⟩ := h
  have h0 := h 0 (by norm_num)
  have h1 := h 1 (by norm_num)
  have h2 := h 2 (by norm_num)
  have h3 := h 3 (by norm_num)
  rw [add_zero] at h0
  rw [leWord, h0, h1, h2, h3]
  omega

theorem readElem_eq {m : HintMemory} {p : ℕ} {e : FieldElement10x26} (h : m.HoldsElem p e) :
    m.readElem p = e := by
  have h0 := leWord_eq (h 0 e.l0 rfl)
  have h1 := leWord_eq (h 1 e.l1 rfl)
  have h2 := leWord_eq (h 2 e.l2 rfl)
  have h3 := leWord_eq (h 3 e.l3 rfl)
  have h4 := leWord_eq (h 4 e.l4 rfl)
  have h5 := leWord_eq (h 5 e.l5 rfl)
  have h6 := leWord_eq (h 6 e.l6 rfl)
  have h7 := leWord_eq (h 7 e.l7 rfl)
  have h8 := leWord_eq (h 8 e.l8 rfl)
  have h9 := leWord_eq (h 9 e.l9 rfl)
  simp only [mul_zero, add_zero, Nat.reduceMul] at h0 h1 h2 h3 h4 h5 h6 h7 h8 h9
  simp only [HintMemory.readElem, h0, h1, h2, h3, h4, h5, h6, h7, h8, h9]

theorem hintsProcessCustom_insn (f : HintsFunct7) {rs1 : ℕ} (h : rs1 < 32) :
    hintsProcessCustom [hintsInsn f rs1] = some ⟨f.phantom, 4 * rs1, 0, 0⟩ := by
  have hf : f.repr < 4 := by cases f <;> decide
  have h1 : hintsInsn f rs1 % 2 ^ 7 = hintsOpcode := by
    simp only [hintsInsn, hintsOpcode, hintsFunct3]; omega
  have h2 : hintsInsn f rs1 / 2 ^ 12 % 2 ^ 3 = hintsFunct3 := by
    simp only [hintsInsn, hintsOpcode, hintsFunct3]; omega
  have h3 : hintsInsn f rs1 / 2 ^ 25 % 2 ^ 7 = f.repr := by
    simp only [hintsInsn, hintsOpcode, hintsFunct3]; omega
  have h4 : hintsInsn f rs1 / 2 ^ 15 % 2 ^ 5 = rs1 := by
    simp only [hintsInsn, hintsOpcode, hintsFunct3]; omega
  have h5 : HintsFunct7.fromRepr f.repr = some f := by cases f <;> rfl
  rw [hintsProcessCustom, if_neg (not_not.2 h1), if_neg (not_not.2 h2), h3, h5, h4]
  rfl

/-- The executor of a hint. -/
def HintsFunct7.executor : HintsFunct7 → HintExecutor
  | .reverseBytes => reverseBytesSubEx
  | .k256InverseField => k256InverseFieldSubEx
  | .k256InverseField10x26 => k256InverseField10x26SubEx
  | .k256SqrtField10x26 => k256SqrtField10x26SubEx

theorem hintsExecutors_find (f : HintsFunct7) :
    hintsExecutors.find? (fun e => e.1 == f.phantom) = some (f.phantom, f.executor) := by
  cases f <;> simp only [hintsExecutors, HintsFunct7.phantom, HintsFunct7.executor, List.find?,
    Nat.reduceBEq]

theorem hintStream_eq (m : HintMemory) (f : HintsFunct7) {rs1 : ℕ} (h : rs1 < 32) :
    hintStream m f rs1 = f.executor m (4 * rs1) 0 := by
  rw [hintStream, hintsProcessCustom_insn f h, Option.bind_eq_bind, Option.bind_some,
    Option.bind_eq_bind]
  simp only
  rw [hintsExecutors_find, Option.bind_some]

theorem readHintU32_leBytes {w : ℕ} (h : w < 2 ^ 32) (s : List ℕ) :
    readHintU32 (leBytes w ++ s) = some (w, s) := by
  simp only [leBytes, List.cons_append, List.nil_append, readHintU32, Option.some.injEq,
    Prod.mk.injEq, and_true]
  omega

theorem readHintElem_leBytes {a : FieldElement10x26} (h : a.Small) :
    readHintElem a.leBytes = some (a, []) := by
  obtain ⟨h0, h1, h2, h3, h4, h5, h6, h7, h8, h9⟩ := h
  have e9 : readHintU32 (leBytes a.l9) = some (a.l9, []) := by
    simpa using readHintU32_leBytes (w := a.l9) (by omega) []
  simp only [FieldElement10x26.leBytes, readHintElem, List.append_assoc, bind, Option.bind,
    readHintU32_leBytes (show a.l0 < 2 ^ 32 by omega),
    readHintU32_leBytes (show a.l1 < 2 ^ 32 by omega),
    readHintU32_leBytes (show a.l2 < 2 ^ 32 by omega),
    readHintU32_leBytes (show a.l3 < 2 ^ 32 by omega),
    readHintU32_leBytes (show a.l4 < 2 ^ 32 by omega),
    readHintU32_leBytes (show a.l5 < 2 ^ 32 by omega),
    readHintU32_leBytes (show a.l6 < 2 ^ 32 by omega),
    readHintU32_leBytes (show a.l7 < 2 ^ 32 by omega),
    readHintU32_leBytes (show a.l8 < 2 ^ 32 by omega), e9]

theorem ensureWeaklyNormalized_eq {a : FieldElement10x26} (h : a.WeaklyNormalized) :
    ensureWeaklyNormalized a = a := by
  obtain ⟨h0, h1, h2, h3, h4, h5, h6, h7, h8, h9⟩ := h
  simp only [ensureWeaklyNormalized, Nat.mod_eq_of_lt h0, Nat.mod_eq_of_lt h1, Nat.mod_eq_of_lt h2,
    Nat.mod_eq_of_lt h3, Nat.mod_eq_of_lt h4, Nat.mod_eq_of_lt h5, Nat.mod_eq_of_lt h6,
    Nat.mod_eq_of_lt h7, Nat.mod_eq_of_lt h8, Nat.mod_eq_of_lt h9]

theorem WeaklyNormalized.small {a : FieldElement10x26} (h : a.WeaklyNormalized) : a.Small := by
  simp only [FieldElement10x26.WeaklyNormalized, FieldElement10x26.Small] at *
  omega

theorem ensureWeaklyNormalized_weak (a : FieldElement10x26) :
    (ensureWeaklyNormalized a).WeaklyNormalized := by
  simp only [ensureWeaklyNormalized, FieldElement10x26.WeaklyNormalized]
  omega

/-- What the mask of the guest does to a product. -/
theorem ensureWeaklyNormalized_product {r : FieldElement10x26} (h : r.Product) :
    ((ensureWeaklyNormalized r).val = r.val ∧ r.l2 < 2 ^ 26 ∧ ensureWeaklyNormalized r = r) ∨
    ((ensureWeaklyNormalized r).val + 2 ^ 78 = r.val ∧ 2 ^ 26 ≤ r.l2) := by
  by_cases h2 : r.l2 < 2 ^ 26
  · left
    obtain ⟨g0, g1, -, g3, g4, g5, g6, g7, g8, g9⟩ := h
    have := ensureWeaklyNormalized_eq (a := r) ⟨g0, g1, h2, g3, g4, g5, g6, g7, g8, g9⟩
    exact ⟨by rw [this], h2, this⟩
  · right
    simp only [ensureWeaklyNormalized, val, Product] at *
    omega

theorem normalize_elem {a r : FieldElement10x26} (h : r.val = a.val % k256P) : r.elem = a.elem := by
  rw [elem, h, ZMod.natCast_mod, elem]

theorem hintInverse_spec {m : HintMemory} {rs1 p : ℕ} {e : FieldElement10x26} (hrs : rs1 < 32)
    (hp : m.PointsTo rs1 p) (he : m.HoldsElem p e) (hm : e.Magnitude 8) :
    ∃ r, hintK256InverseField10x26 m rs1 = some r ∧ r.Normalized ∧
      hintStream m .k256InverseField10x26 rs1 = some r.leBytes ∧ r.elem = e.elem⁻¹ := by
  obtain ⟨i, hi, hpi, hei⟩ := invert_spec hm.small
  have hmi := hpi.magnitude
  obtain ⟨r, hr, hn, hv⟩ := normalize_spec (a := i) (by simp only [Magnitude] at hmi ⊢; omega)
  have hp' : m.register (4 * rs1) = p := leWord_eq hp
  have hst : hintStream m .k256InverseField10x26 rs1 = some r.leBytes := by
    simp only [hintStream_eq m _ hrs, HintsFunct7.executor, k256InverseField10x26SubEx, check_true,
      hp', readElem_eq he, hi, hr, Option.bind_eq_bind, Option.bind_some]
  refine ⟨r, ?_, hn, hst, by rw [normalize_elem hv, hei]⟩
  simp only [hintK256InverseField10x26, hst, Option.bind_eq_bind, Option.bind_some,
    readHintElem_leBytes (WeaklyNormalized.small hn.1), ensureWeaklyNormalized_eq hn.1]

theorem nonQuadraticResidue_elem : k256NonQuadraticResidue.elem = 3 := by
  have : k256NonQuadraticResidue.val = 3 := by decide +kernel
  rw [elem, this, Nat.cast_ofNat]

theorem hintSqrt_spec {m : HintMemory} {rs1 p : ℕ} {e : FieldElement10x26} (hrs : rs1 < 32)
    (hp : m.PointsTo rs1 p) (he : m.HoldsElem p e) (hm : e.Magnitude 8) :
    ∃ (b : Bool) (r : FieldElement10x26),
      hintStream m .k256SqrtField10x26 rs1 = some (leBytes b.toNat ++ r.leBytes) ∧
      hintK256SqrtField10x26 m rs1 = some (b, ensureWeaklyNormalized r) ∧
      r.Product ∧ (b = true ↔ IsSquare e.elem) ∧
      r.elem ^ 2 = if b then e.elem else e.elem * 3 := by
  have hp' : m.register (4 * rs1) = p := leWord_eq hp
  obtain ⟨r, hr, hpr, hroot, hs, hs0⟩ := sqrt_spec hm
  by_cases hsq : IsSquare e.elem
  · replace hs := hs hsq
    have hst : hintStream m .k256SqrtField10x26 rs1 = some (leBytes 1 ++ r.leBytes) := by
      simp only [hintStream_eq m _ hrs, HintsFunct7.executor, k256SqrtField10x26SubEx,
        check_true, hp', readElem_eq he, hs,
        Option.bind_eq_bind, Option.bind_some]
    refine ⟨true, r, hst, ?_, hpr, by simp [hsq], by simpa using hroot hsq⟩
    simp only [hintK256SqrtField10x26, hst, Option.bind_eq_bind, Option.bind_some, readHintU32_leBytes
      (show (1 : ℕ) < 2 ^ 32 by norm_num), readHintElem_leBytes hpr.small]
    rfl
  · replace hs := hs0 hsq
    have h3 : k256NonQuadraticResidue.Magnitude 8 := by decide
    obtain ⟨t, ht, hpt, het⟩ := mul_spec hm.small h3.small
    rw [nonQuadraticResidue_elem] at het
    have hmt := hpt.magnitude
    obtain ⟨s, hsc, hps, hroot', hs', -⟩ := sqrt_spec (a := t) (by
      simp only [Magnitude] at hmt ⊢; omega)
    have hsq' : IsSquare t.elem := by rw [het]; exact isSquare_three_mul hsq
    replace hs' := hs' hsq'
    have hst : hintStream m .k256SqrtField10x26 rs1 = some (leBytes 0 ++ s.leBytes) := by
      simp only [hintStream_eq m _ hrs, HintsFunct7.executor, k256SqrtField10x26SubEx,
        check_true, hp', readElem_eq he, hs, ht, hs',
        Option.bind_eq_bind, Option.bind_some]
    refine ⟨false, s, hst, ?_, hps, by simp [hsq], ?_⟩
    · simp only [hintK256SqrtField10x26, hst, Option.bind_eq_bind, Option.bind_some, readHintU32_leBytes
        (show (0 : ℕ) < 2 ^ 32 by norm_num), readHintElem_leBytes hps.small]
      rfl
    · simp only [Bool.false_eq_true, if_false]
      rw [hroot' hsq', het]

theorem mask_and {v k n : ℕ} (h : n = (2 ^ 8 - 1) * 2 ^ k) : v &&& n = v / 2 ^ k % 2 ^ 8 * 2 ^ k := by
  subst h
  apply Nat.eq_of_testBit_eq
  intro i
  rw [Nat.testBit_and, Nat.testBit_mul_two_pow, Nat.testBit_mul_two_pow, Nat.testBit_mod_two_pow,
    Nat.testBit_two_pow_sub_one, Nat.testBit_div_two_pow]
  by_cases hk : k ≤ i
  · rw [Nat.sub_add_cancel hk]
    simp [hk, Bool.and_comm]
  · simp [hk]

theorem native_eq (v : ℕ) : hintReverseBytesNative v = byteSwap v := by
  have e0 : v &&& 0x000000FF = v % 2 ^ 8 * 2 ^ 0 := by
    simpa using mask_and (v := v) (k := 0) (n := 0xFF) (by norm_num)
  have e1 : v &&& 0x0000FF00 = v / 2 ^ 8 % 2 ^ 8 * 2 ^ 8 := mask_and (by norm_num)
  have e2 : v &&& 0x00FF0000 = v / 2 ^ 16 % 2 ^ 8 * 2 ^ 16 := mask_and (by norm_num)
  have e3 : v &&& 0xFF000000 = v / 2 ^ 24 % 2 ^ 8 * 2 ^ 24 := mask_and (by norm_num)
  rw [hintReverseBytesNative, e0, e1, e2, e3]
  have d0 : v % 2 ^ 8 < 2 ^ 8 := by omega
  have d1 : v / 2 ^ 8 % 2 ^ 8 < 2 ^ 8 := by omega
  have d2 : v / 2 ^ 16 % 2 ^ 8 < 2 ^ 8 := by omega
  have d3 : v / 2 ^ 24 % 2 ^ 8 < 2 ^ 8 := by omega
  simp only [byteSwap, show (256 : ℕ) = 2 ^ 8 by norm_num]
  generalize v % 2 ^ 8 = a at *
  generalize v / 2 ^ 8 % 2 ^ 8 = b at *
  generalize v / 2 ^ 16 % 2 ^ 8 = c at *
  generalize v / 2 ^ 24 % 2 ^ 8 = d at *
  have f1 : (a * 2 ^ 0) <<< 24 = a <<< 24 := by rw [pow_zero, mul_one]
  have f2 : (b * 2 ^ 8) <<< 8 = b * 2 ^ 16 := by rw [Nat.shiftLeft_eq]; ring
  have f3 : (c * 2 ^ 16) >>> 8 = c * 2 ^ 8 := by rw [Nat.shiftRight_eq_div_pow]; omega
  have f4 : (d * 2 ^ 24) >>> 24 = d := by rw [Nat.shiftRight_eq_div_pow]; omega
  have g1 : a <<< 24 ||| b * 2 ^ 16 = (a * 2 ^ 8 + b) <<< 16 := by
    rw [← Nat.shiftLeft_add_eq_or_of_lt (by omega)]
    simp only [Nat.shiftLeft_eq]; ring
  have g2 : (a * 2 ^ 8 + b) <<< 16 ||| c * 2 ^ 8 = (a * 2 ^ 16 + b * 2 ^ 8 + c) <<< 8 := by
    rw [← Nat.shiftLeft_add_eq_or_of_lt (by omega)]
    simp only [Nat.shiftLeft_eq]; ring
  rw [f1, f2, f3, f4, g1, g2, ← Nat.shiftLeft_add_eq_or_of_lt d3, Nat.shiftLeft_eq]
  ring

end Verif
