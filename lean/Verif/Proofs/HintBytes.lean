import Verif.Proofs.Hints

/-!
# Field elements and numbers as bytes
-/

namespace Verif

open FieldElement10x26

theorem range32_map {A : Type} (f : ℕ → A) : (List.range 32).map f =
    [f 0, f 1, f 2, f 3, f 4, f 5, f 6, f 7, f 8, f 9, f 10, f 11, f 12, f 13, f 14, f 15, f 16,
     f 17, f 18, f 19, f 20, f 21, f 22, f 23, f 24, f 25, f 26, f 27, f 28, f 29, f 30, f 31] :=
  rfl

theorem fromBytesUnchecked_spec {b : ℕ → ℕ} (h : ∀ i < 32, b i < 256) :
    (fromBytesUnchecked b).WeaklyNormalized ∧
      (fromBytesUnchecked b).val = beValue ((List.range 32).map b) := by
  have h0 := h 0 (by norm_num); have h1 := h 1 (by norm_num); have h2 := h 2 (by norm_num)
  have h3 := h 3 (by norm_num); have h4 := h 4 (by norm_num); have h5 := h 5 (by norm_num)
  have h6 := h 6 (by norm_num); have h7 := h 7 (by norm_num); have h8 := h 8 (by norm_num)
  have h9 := h 9 (by norm_num); have h10 := h 10 (by norm_num); have h11 := h 11 (by norm_num)
  have h12 := h 12 (by norm_num); have h13 := h 13 (by norm_num); have h14 := h 14 (by norm_num)
  have h15 := h 15 (by norm_num); have h16 := h 16 (by norm_num); have h17 := h 17 (by norm_num)
  have h18 := h 18 (by norm_num); have h19 := h 19 (by norm_num); have h20 := h 20 (by norm_num)
  have h21 := h 21 (by norm_num); have h22 := h 22 (by norm_num); have h23 := h 23 (by norm_num)
  have h24 := h 24 (by norm_num); have h25 := h 25 (by norm_num); have h26 := h 26 (by norm_num)
  have h27 := h 27 (by norm_num); have h28 := h 28 (by norm_num); have h29 := h 29 (by norm_num)
  have h30 := h 30 (by norm_num); have h31 := h 31 (by norm_num)
  constructor
  · simp only [FieldElement10x26.WeaklyNormalized, fromBytesUnchecked]
    refine ⟨?_, ?_, ?_, ?_, ?_, ?_, ?_, ?_, ?_, ?_⟩ <;> omega
  · rw [range32_map]
    simp only [beValue, List.length_cons, List.length_nil, fromBytesUnchecked, val]
    norm_num only
    omega

theorem toBytes_spec {a : FieldElement10x26} (h : a.WeaklyNormalized) :
    a.toBytes.length = 32 ∧ (∀ x ∈ a.toBytes, x < 256) ∧ beValue a.toBytes = a.val := by
  obtain ⟨h0, h1, h2, h3, h4, h5, h6, h7, h8, h9⟩ := h
  refine ⟨rfl, ?_, ?_⟩
  · intro x hx
    simp only [toBytes, List.mem_cons, List.not_mem_nil, or_false] at hx
    omega
  · simp only [val]
    have e0 : a.l0 = a.l0 / 2 ^ 24 % 2 ^ 8 % 4 * 2 ^ 24 + a.l0 / 2 ^ 16 % 2 ^ 8 * 2 ^ 16 + a.l0 / 2 ^ 8 % 2 ^ 8 * 2 ^ 8 + a.l0 % 2 ^ 8 * 2 ^ 0 := by omega
    have e1 : a.l1 = a.l1 / 2 ^ 22 % 2 ^ 8 % 2 ^ 4 * 2 ^ 22 + a.l1 / 2 ^ 14 % 2 ^ 8 * 2 ^ 14 + a.l1 / 2 ^ 6 % 2 ^ 8 * 2 ^ 6 + a.l1 % 2 ^ 8 % 2 ^ 6 * 2 ^ 0 := by omega
    have e2 : a.l2 = a.l2 / 2 ^ 20 % 2 ^ 8 % 2 ^ 6 * 2 ^ 20 + a.l2 / 2 ^ 12 % 2 ^ 8 * 2 ^ 12 + a.l2 / 2 ^ 4 % 2 ^ 8 * 2 ^ 4 + a.l2 % 2 ^ 8 % 2 ^ 4 * 2 ^ 0 := by omega
    have e3 : a.l3 = a.l3 / 2 ^ 18 % 2 ^ 8 * 2 ^ 18 + a.l3 / 2 ^ 10 % 2 ^ 8 * 2 ^ 10 + a.l3 / 2 ^ 2 % 2 ^ 8 * 2 ^ 2 + a.l3 % 2 ^ 8 % 4 * 2 ^ 0 := by omega
    have e4 : a.l4 = a.l4 / 2 ^ 24 % 2 ^ 8 % 4 * 2 ^ 24 + a.l4 / 2 ^ 16 % 2 ^ 8 * 2 ^ 16 + a.l4 / 2 ^ 8 % 2 ^ 8 * 2 ^ 8 + a.l4 % 2 ^ 8 * 2 ^ 0 := by omega
    have e5 : a.l5 = a.l5 / 2 ^ 22 % 2 ^ 8 % 2 ^ 4 * 2 ^ 22 + a.l5 / 2 ^ 14 % 2 ^ 8 * 2 ^ 14 + a.l5 / 2 ^ 6 % 2 ^ 8 * 2 ^ 6 + a.l5 % 2 ^ 8 % 2 ^ 6 * 2 ^ 0 := by omega
    have e6 : a.l6 = a.l6 / 2 ^ 20 % 2 ^ 8 % 2 ^ 6 * 2 ^ 20 + a.l6 / 2 ^ 12 % 2 ^ 8 * 2 ^ 12 + a.l6 / 2 ^ 4 % 2 ^ 8 * 2 ^ 4 + a.l6 % 2 ^ 8 % 2 ^ 4 * 2 ^ 0 := by omega
    have e7 : a.l7 = a.l7 / 2 ^ 18 % 2 ^ 8 * 2 ^ 18 + a.l7 / 2 ^ 10 % 2 ^ 8 * 2 ^ 10 + a.l7 / 2 ^ 2 % 2 ^ 8 * 2 ^ 2 + a.l7 % 2 ^ 8 % 4 * 2 ^ 0 := by omega
    have e8 : a.l8 = a.l8 / 2 ^ 24 % 2 ^ 8 % 4 * 2 ^ 24 + a.l8 / 2 ^ 16 % 2 ^ 8 * 2 ^ 16 + a.l8 / 2 ^ 8 % 2 ^ 8 * 2 ^ 8 + a.l8 % 2 ^ 8 * 2 ^ 0 := by omega
    have e9 : a.l9 = a.l9 / 2 ^ 14 % 2 ^ 8 * 2 ^ 14 + a.l9 / 2 ^ 6 % 2 ^ 8 * 2 ^ 6 + a.l9 % 2 ^ 8 % 2 ^ 6 * 2 ^ 0 := by omega
    rw [toBytes]
    generalize a.l0 / 2 ^ 24 % 2 ^ 8 % 4 = x00 at *
    generalize a.l0 / 2 ^ 16 % 2 ^ 8 = x01 at *
    generalize a.l0 / 2 ^ 8 % 2 ^ 8 = x02 at *
    generalize a.l0 % 2 ^ 8 = x03 at *
    generalize a.l1 / 2 ^ 22 % 2 ^ 8 % 2 ^ 4 = x10 at *
    generalize a.l1 / 2 ^ 14 % 2 ^ 8 = x11 at *
    generalize a.l1 / 2 ^ 6 % 2 ^ 8 = x12 at *
    generalize a.l1 % 2 ^ 8 % 2 ^ 6 = x13 at *
    generalize a.l2 / 2 ^ 20 % 2 ^ 8 % 2 ^ 6 = x20 at *
    generalize a.l2 / 2 ^ 12 % 2 ^ 8 = x21 at *
    generalize a.l2 / 2 ^ 4 % 2 ^ 8 = x22 at *
    generalize a.l2 % 2 ^ 8 % 2 ^ 4 = x23 at *
    generalize a.l3 / 2 ^ 18 % 2 ^ 8 = x30 at *
    generalize a.l3 / 2 ^ 10 % 2 ^ 8 = x31 at *
    generalize a.l3 / 2 ^ 2 % 2 ^ 8 = x32 at *
    generalize a.l3 % 2 ^ 8 % 4 = x33 at *
    generalize a.l4 / 2 ^ 24 % 2 ^ 8 % 4 = x40 at *
    generalize a.l4 / 2 ^ 16 % 2 ^ 8 = x41 at *
    generalize a.l4 / 2 ^ 8 % 2 ^ 8 = x42 at *
    generalize a.l4 % 2 ^ 8 = x43 at *
    generalize a.l5 / 2 ^ 22 % 2 ^ 8 % 2 ^ 4 = x50 at *
    generalize a.l5 / 2 ^ 14 % 2 ^ 8 = x51 at *
    generalize a.l5 / 2 ^ 6 % 2 ^ 8 = x52 at *
    generalize a.l5 % 2 ^ 8 % 2 ^ 6 = x53 at *
    generalize a.l6 / 2 ^ 20 % 2 ^ 8 % 2 ^ 6 = x60 at *
    generalize a.l6 / 2 ^ 12 % 2 ^ 8 = x61 at *
    generalize a.l6 / 2 ^ 4 % 2 ^ 8 = x62 at *
    generalize a.l6 % 2 ^ 8 % 2 ^ 4 = x63 at *
    generalize a.l7 / 2 ^ 18 % 2 ^ 8 = x70 at *
    generalize a.l7 / 2 ^ 10 % 2 ^ 8 = x71 at *
    generalize a.l7 / 2 ^ 2 % 2 ^ 8 = x72 at *
    generalize a.l7 % 2 ^ 8 % 4 = x73 at *
    generalize a.l8 / 2 ^ 24 % 2 ^ 8 % 4 = x80 at *
    generalize a.l8 / 2 ^ 16 % 2 ^ 8 = x81 at *
    generalize a.l8 / 2 ^ 8 % 2 ^ 8 = x82 at *
    generalize a.l8 % 2 ^ 8 = x83 at *
    generalize a.l9 / 2 ^ 14 % 2 ^ 8 = x90 at *
    generalize a.l9 / 2 ^ 6 % 2 ^ 8 = x91 at *
    generalize a.l9 % 2 ^ 8 % 2 ^ 6 = x92 at *
    rw [e0, e1, e2, e3, e4, e5, e6, e7, e8, e9]
    simp only [beValue, List.length_cons, List.length_nil]
    ring

theorem fromBeBytes_eq_aux : ∀ (l : List ℕ) (n : ℕ),
    l.foldl (fun n b => n * 2 ^ 8 + b) n = n * 256 ^ l.length + beValue l
  | [], n => by simp [beValue]
  | b :: l, n => by
    rw [List.foldl_cons, fromBeBytes_eq_aux l, beValue, List.length_cons, pow_succ]
    ring

theorem fromBeBytes_eq (l : List ℕ) : fromBeBytes l = beValue l := by
  rw [fromBeBytes, fromBeBytes_eq_aux, zero_mul, zero_add]

theorem beValue_digits (n : ℕ) : ∀ k : ℕ,
    beValue ((List.range k).map fun i => n / 2 ^ (8 * (k - 1 - i)) % 2 ^ 8) = n % 256 ^ k
  | 0 => by simp [beValue, Nat.mod_one]
  | k + 1 => by
    have ih := beValue_digits n k
    rw [List.range_succ_eq_map, List.map_cons, beValue, List.length_map, List.length_map,
      List.length_range, List.map_map]
    have e : ((fun i => n / 2 ^ (8 * (k + 1 - 1 - i)) % 2 ^ 8) ∘ Nat.succ) =
        fun i => n / 2 ^ (8 * (k - 1 - i)) % 2 ^ 8 := by
      funext i
      simp only [Function.comp, Nat.succ_eq_add_one, Nat.add_sub_cancel]
      rw [show k - (i + 1) = k - 1 - i by omega]
    rw [e, ih, show 8 * (k + 1 - 1 - 0) = 8 * k by omega, pow_mul, show (2 : ℕ) ^ 8 = 256 by norm_num,
      pow_succ, Nat.mod_mul]
    ring

theorem toBeBytes_spec {n : ℕ} (h : n < 2 ^ 256) :
    (toBeBytes n).length = 32 ∧ (∀ x ∈ toBeBytes n, x < 256) ∧ beValue (toBeBytes n) = n := by
  refine ⟨by simp [toBeBytes], ?_, ?_⟩
  · intro x hx
    simp only [toBeBytes, List.mem_map] at hx
    obtain ⟨i, -, rfl⟩ := hx
    exact Nat.mod_lt _ (by norm_num)
  · rw [toBeBytes]
    have := beValue_digits n 32
    rw [Nat.mod_eq_of_lt (lt_of_lt_of_eq h (by norm_num))] at this
    exact this

end Verif
