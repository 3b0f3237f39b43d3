import Verif.Spec.FixedInt
import Verif.Proofs.FieldText
import Verif.Proofs.RangeConstraint

/-!
# Integers with a fixed number of bits: proofs
-/

set_option linter.unusedSimpArgs false

namespace Verif

/-! ## Words -/

theorem leadingZeros_le (w n : ℕ) : leadingZeros w n ≤ w := by
  induction w with
  | zero => simp [leadingZeros]
  | succ w ih =>
    simp only [leadingZeros]
    split <;> omega

theorem leadingZeros_iff {w n : ℕ} (h : n < 2 ^ w) (k : ℕ) : w - leadingZeros w n ≤ k ↔ n < 2 ^ k := by
  induction w with
  | zero =>
    have : n = 0 := by simpa using h
    subst this
    simp
  | succ w ih =>
    simp only [leadingZeros]
    split
    · rename_i ht
      have hge := Nat.ge_two_pow_of_testBit ht
      constructor
      · intro hk
        exact lt_of_lt_of_le h (Nat.pow_le_pow_right (by norm_num) (by omega))
      · intro hk
        by_contra hlt
        have : 2 ^ k ≤ 2 ^ w := Nat.pow_le_pow_right (by norm_num) (by omega)
        omega
    · rename_i ht
      have hlt : n < 2 ^ w := by
        rw [Nat.testBit_eq_decide_div_mod_eq] at ht
        simp only [decide_eq_true_eq] at ht
        have h2 : n / 2 ^ w < 2 := by
          rw [Nat.div_lt_iff_lt_mul (Nat.two_pow_pos w)]
          rw [pow_succ] at h
          omega
        have h3 : n / 2 ^ w = 0 := by
          clear h
          generalize n / 2 ^ w = q at ht h2 ⊢
          omega
        exact (Nat.div_eq_zero_iff.1 h3).resolve_left (Nat.two_pow_pos w).ne'
      have := ih hlt
      rw [← this]
      omega

theorem word_shl {checks : Bool} {w a k : ℕ} (hk : k < w) (h : a * 2 ^ k < 2 ^ w) :
    WordInt.shl checks w a k = .ok (a * 2 ^ k) := by
  rw [WordInt.shl, if_pos hk, Nat.shiftLeft_eq, Nat.mod_eq_of_lt h]

theorem word_shr {checks : Bool} {w a k : ℕ} (hk : k < w) : WordInt.shr checks w a k = .ok (a / 2 ^ k) := by
  rw [WordInt.shr, if_pos hk, Nat.shiftRight_eq_div_pow]

theorem word_fromHex {w n : ℕ} (h : n < 2 ^ w) : WordInt.fromHex w (Nat.toDigits 16 n) = .ok n := by
  rw [WordInt.fromHex, fromStrRadix_toDigits (by norm_num) (by norm_num) h]

theorem wordInt_fixedWidth (checks : Bool) {w : ℕ} (hw : 32 ≤ w) :
    FixedWidth (wordInt checks w) (WordValid w) where
  lt := fun (a : ℕ) h => h
  unique := fun (a b : ℕ) _ _ h => h
  ofCanonical := fun (n : ℕ) h => ⟨h, rfl⟩
  fromU64 := fun (n : ℕ) _ => ⟨Nat.mod_lt _ (Nat.two_pow_pos w), rfl⟩
  fromU32 := fun (n : ℕ) h => ⟨lt_of_lt_of_le h (Nat.pow_le_pow_right (by norm_num) hw), rfl⟩
  zero := ⟨Nat.two_pow_pos w, rfl⟩
  one := ⟨(lt_of_lt_of_le (by norm_num) (Nat.pow_le_pow_right (by norm_num) hw : 2 ^ 32 ≤ 2 ^ w) : 1 < 2 ^ w), rfl⟩
  max := ⟨Nat.sub_lt (Nat.two_pow_pos w) one_pos, rfl⟩
  add := fun (a b : ℕ) _ _ h => ⟨a + b, if_pos h, h, rfl⟩
  sub := fun (a b : ℕ) ha _ h => ⟨a - b, if_pos h, lt_of_le_of_lt (Nat.sub_le _ _) ha, rfl⟩
  shl := fun (a k : ℕ) ha hk h => by
    have h' : a * 2 ^ k < 2 ^ w := h
    exact ⟨a * 2 ^ k, word_shl hk h', h', rfl⟩
  shr := fun (a k : ℕ) ha hk => by
    exact ⟨a / 2 ^ k, word_shr hk, lt_of_le_of_lt (Nat.div_le_self _ _) ha, rfl⟩
  and := fun (a b : ℕ) ha hb => ⟨lt_of_le_of_lt (Nat.and_le_left) ha, fun i => Nat.testBit_and a b i⟩
  or := fun (a b : ℕ) ha hb => ⟨Nat.or_lt_two_pow ha hb, fun i => Nat.testBit_or a b i⟩
  xor := fun (a b : ℕ) ha hb => ⟨Nat.xor_lt_two_pow ha hb, fun i => Nat.testBit_xor a b i⟩
  not := fun (a : ℕ) ha => by
    have ha' : a < 2 ^ w := ha
    refine ⟨?_, ?_⟩
    · show 2 ^ w - 1 - a < 2 ^ w
      omega
    · show a + (2 ^ w - 1 - a) + 1 = 2 ^ w
      omega
  eq := fun (a b : ℕ) _ _ => by
    show decide (a = b) = true ↔ a = b
    simp
  less := fun (a b : ℕ) _ _ => by
    show decide (a < b) = true ↔ a < b
    simp
  isZero := fun (a : ℕ) _ => by
    show decide (a = 0) = true ↔ a = 0
    simp
  isOne := fun (a : ℕ) _ => by
    show decide (a = 1) = true ↔ a = 1
    simp
  numBits := fun (a k : ℕ) ha => leadingZeros_iff ha k
  tryIntoU64 := fun (a n : ℕ) _ => by
    show (if a < 2 ^ 64 then some a else none) = some n ↔ a = n ∧ n < 2 ^ 64
    split <;> simp <;> omega
  tryIntoU32 := fun (a n : ℕ) _ => by
    show (if a < 2 ^ 32 then some a else none) = some n ↔ a = n ∧ n < 2 ^ 32
    split <;> simp <;> omega
  fromHex := fun (n : ℕ) h => by
    have h' : n < 2 ^ w := h
    exact ⟨n, word_fromHex h', h', rfl⟩

/-! ## Limbs -/

namespace LimbInt

theorem valid_cons {n x : ℕ} {t : List ℕ} : LimbsValid (n + 1) (x :: t) ↔ x < 2 ^ 64 ∧ LimbsValid n t := by
  simp [LimbsValid]
  tauto

theorem valid_nil {n : ℕ} : LimbsValid n [] ↔ n = 0 := by simp [LimbsValid, eq_comm]

theorem two_pow_limbs (n : ℕ) : 2 ^ (64 * (n + 1)) = 2 ^ 64 * 2 ^ (64 * n) := by
  rw [← pow_add]
  congr 1
  omega

theorem limbsValue_lt {n : ℕ} {l : List ℕ} (h : LimbsValid n l) : limbsValue l < 2 ^ (64 * n) := by
  induction l generalizing n with
  | nil => simp [limbsValue]
  | cons x t ih =>
    cases n with
    | zero => simp [LimbsValid] at h
    | succ n =>
      obtain ⟨hx, ht⟩ := valid_cons.1 h
      have := ih ht
      rw [two_pow_limbs]
      simp only [limbsValue]
      have : 2 ^ 64 * limbsValue t + 2 ^ 64 ≤ 2 ^ 64 * 2 ^ (64 * n) := by
        rw [← Nat.mul_succ]
        exact Nat.mul_le_mul_left _ this
      omega

theorem ofLeBytes_append (a b : List (BitVec 8)) :
    FieldKind.ofLeBytes (a ++ b) = FieldKind.ofLeBytes a + 256 ^ a.length * FieldKind.ofLeBytes b := by
  induction a with
  | nil => simp [FieldKind.ofLeBytes]
  | cons x t ih =>
    simp only [List.cons_append, FieldKind.ofLeBytes, ih, List.length_cons, pow_succ]
    ring

theorem leBytes_length (n a : ℕ) : (FieldKind.leBytes n a).length = n := by
  induction n generalizing a with
  | zero => rfl
  | succ n ih => simp [FieldKind.leBytes, ih]

theorem toArbitrary_eq {l : List ℕ} (h : ∀ x ∈ l, x < 2 ^ 64) : toArbitrary l = limbsValue l := by
  induction l with
  | nil => rfl
  | cons x t ih =>
    have hx : x < 256 ^ 8 := lt_of_lt_of_le (h x (by simp)) (by norm_num)
    unfold toArbitrary at ih ⊢
    rw [List.flatMap_cons, ofLeBytes_append, ih fun y hy => h y (by simp [hy]), leBytes_length,
      FieldKind.ofLeBytes_leBytes hx]
    rfl

theorem ofNat_valid (n a : ℕ) : LimbsValid n (ofNat n a) := by
  induction n generalizing a with
  | zero => simp [ofNat, LimbsValid]
  | succ n ih => exact valid_cons.2 ⟨Nat.mod_lt _ (by norm_num), ih _⟩

theorem limbsValue_ofNat (n a : ℕ) : limbsValue (ofNat n a) = a % 2 ^ (64 * n) := by
  induction n generalizing a with
  | zero => simp [ofNat, limbsValue, Nat.mod_one]
  | succ n ih =>
    simp only [ofNat, limbsValue, ih]
    rw [two_pow_limbs, Nat.mod_mul]

theorem limbsValue_inj {n : ℕ} {a b : List ℕ} (ha : LimbsValid n a) (hb : LimbsValid n b)
    (h : limbsValue a = limbsValue b) : a = b := by
  induction a generalizing n b with
  | nil =>
    have := valid_nil.1 ha
    subst this
    exact (List.length_eq_zero_iff.1 hb.1).symm
  | cons x t ih =>
    cases n with
    | zero => simp [LimbsValid] at ha
    | succ n =>
      cases b with
      | nil => simp [LimbsValid] at hb
      | cons y u =>
        obtain ⟨hx, ht⟩ := valid_cons.1 ha
        obtain ⟨hy, hu⟩ := valid_cons.1 hb
        simp only [limbsValue] at h
        have h1 : x = y := by omega
        have h2 : limbsValue t = limbsValue u := by omega
        rw [h1, ih ht hu h2]

theorem addCarry_valid {n c : ℕ} {a b : List ℕ} (ha : LimbsValid n a) (hb : LimbsValid n b) :
    LimbsValid n (addCarry c a b) := by
  induction a generalizing n c b with
  | nil => simpa [addCarry] using ha
  | cons x t ih =>
    cases n with
    | zero => simp [LimbsValid] at ha
    | succ n =>
      cases b with
      | nil => simp [LimbsValid] at hb
      | cons y u =>
        exact valid_cons.2 ⟨Nat.mod_lt _ (by norm_num), ih (valid_cons.1 ha).2 (valid_cons.1 hb).2⟩

theorem limbsValue_addCarry {n c : ℕ} {a b : List ℕ} (ha : LimbsValid n a) (hb : LimbsValid n b) :
    limbsValue (addCarry c a b) = (limbsValue a + limbsValue b + c) % 2 ^ (64 * n) := by
  induction a generalizing n c b with
  | nil =>
    have := valid_nil.1 ha
    subst this
    simp [addCarry, limbsValue, Nat.mod_one]
  | cons x t ih =>
    cases n with
    | zero => simp [LimbsValid] at ha
    | succ n =>
      cases b with
      | nil => simp [LimbsValid] at hb
      | cons y u =>
        simp only [addCarry, limbsValue]
        rw [ih (valid_cons.1 ha).2 (valid_cons.1 hb).2, two_pow_limbs, Nat.mod_mul]
        have e : x + 2 ^ 64 * limbsValue t + (y + 2 ^ 64 * limbsValue u) + c =
            (x + y + c) + 2 ^ 64 * (limbsValue t + limbsValue u) := by ring
        rw [e, Nat.add_mul_mod_self_left, Nat.add_mul_div_left _ _ (by norm_num)]
        congr 3
        omega

theorem subBorrow_valid {n c : ℕ} {a b : List ℕ} (ha : LimbsValid n a) (hb : LimbsValid n b) :
    LimbsValid n (subBorrow c a b) := by
  induction a generalizing n c b with
  | nil => simpa [subBorrow] using ha
  | cons x t ih =>
    cases n with
    | zero => simp [LimbsValid] at ha
    | succ n =>
      cases b with
      | nil => simp [LimbsValid] at hb
      | cons y u =>
        exact valid_cons.2 ⟨Nat.mod_lt _ (by norm_num), ih (valid_cons.1 ha).2 (valid_cons.1 hb).2⟩

theorem limbsValue_subBorrow {n c : ℕ} {a b : List ℕ} (hc : c ≤ 1) (ha : LimbsValid n a) (hb : LimbsValid n b) :
    (limbsValue (subBorrow c a b) + limbsValue b + c) % 2 ^ (64 * n) = limbsValue a := by
  induction a generalizing n c b with
  | nil =>
    have := valid_nil.1 ha
    subst this
    simp [limbsValue, Nat.mod_one]
  | cons x t ih =>
    cases n with
    | zero => simp [LimbsValid] at ha
    | succ n =>
      cases b with
      | nil => simp [LimbsValid] at hb
      | cons y u =>
        obtain ⟨hx, ht⟩ := valid_cons.1 ha
        obtain ⟨hy, hu⟩ := valid_cons.1 hb
        have key := ih (c := if x < y + c then 1 else 0) (by split <;> omega) ht hu
        simp only [subBorrow, limbsValue]
        generalize limbsValue (subBorrow (if x < y + c then 1 else 0) t u) = R at key ⊢
        have e : (x + 2 ^ 64 - y - c) % 2 ^ 64 + y + c = x + 2 ^ 64 * (if x < y + c then 1 else 0) := by
          split <;> omega
        have e2 : (x + 2 ^ 64 - y - c) % 2 ^ 64 + 2 ^ 64 * R + (y + 2 ^ 64 * limbsValue u) + c =
            x + 2 ^ 64 * (R + limbsValue u + if x < y + c then 1 else 0) := by
          have : (x + 2 ^ 64 - y - c) % 2 ^ 64 + 2 ^ 64 * R + (y + 2 ^ 64 * limbsValue u) + c =
            ((x + 2 ^ 64 - y - c) % 2 ^ 64 + y + c) + 2 ^ 64 * (R + limbsValue u) := by ring
          rw [this, e]
          ring
        rw [e2, two_pow_limbs, Nat.mod_mul, Nat.add_mul_mod_self_left, Nat.mod_eq_of_lt hx,
          Nat.add_mul_div_left _ _ (by norm_num), Nat.div_eq_of_lt hx, Nat.zero_add, key]

theorem zip_valid {f : ℕ → ℕ → ℕ} (hf : ∀ x y, x < 2 ^ 64 → y < 2 ^ 64 → f x y < 2 ^ 64) {n : ℕ} {a b : List ℕ}
    (ha : LimbsValid n a) (hb : LimbsValid n b) : LimbsValid n (zip f a b) := by
  induction a generalizing n b with
  | nil => simpa [zip] using ha
  | cons x t ih =>
    cases n with
    | zero => simp [LimbsValid] at ha
    | succ n =>
      cases b with
      | nil => simp [LimbsValid] at hb
      | cons y u =>
        obtain ⟨hx, ht⟩ := valid_cons.1 ha
        obtain ⟨hy, hu⟩ := valid_cons.1 hb
        exact valid_cons.2 ⟨hf x y hx hy, ih ht hu⟩

theorem testBit_cons {x : ℕ} (hx : x < 2 ^ 64) (t : List ℕ) (i : ℕ) :
    (limbsValue (x :: t)).testBit i = if i < 64 then x.testBit i else (limbsValue t).testBit (i - 64) := by
  simp only [limbsValue]
  rw [Nat.add_comm, Nat.testBit_two_pow_mul_add _ hx]

theorem testBit_zip {f : ℕ → ℕ → ℕ} {g : Bool → Bool → Bool}
    (hf : ∀ x y, x < 2 ^ 64 → y < 2 ^ 64 → f x y < 2 ^ 64)
    (hg : ∀ x y i, (f x y).testBit i = g (x.testBit i) (y.testBit i)) (h0 : g false false = false) {n : ℕ} {a b : List ℕ}
    (ha : LimbsValid n a) (hb : LimbsValid n b) (i : ℕ) :
    (limbsValue (zip f a b)).testBit i = g ((limbsValue a).testBit i) ((limbsValue b).testBit i) := by
  induction a generalizing n b i with
  | nil =>
    have := valid_nil.1 ha
    subst this
    have := List.length_eq_zero_iff.1 hb.1
    subst this
    simp [zip, limbsValue, h0]
  | cons x t ih =>
    cases n with
    | zero => simp [LimbsValid] at ha
    | succ n =>
      cases b with
      | nil => simp [LimbsValid] at hb
      | cons y u =>
        obtain ⟨hx, ht⟩ := valid_cons.1 ha
        obtain ⟨hy, hu⟩ := valid_cons.1 hb
        simp only [zip]
        rw [testBit_cons (hf x y hx hy), testBit_cons hx, testBit_cons hy]
        split
        · exact hg x y i
        · exact ih ht hu _

theorem not_valid {n : ℕ} {a : List ℕ} (ha : LimbsValid n a) : LimbsValid n (not a) := by
  refine ⟨by simpa [not] using ha.1, ?_⟩
  intro x hx
  simp only [not, List.mem_map] at hx
  obtain ⟨y, _, rfl⟩ := hx
  omega

theorem limbsValue_not {n : ℕ} {a : List ℕ} (ha : LimbsValid n a) :
    limbsValue a + limbsValue (not a) + 1 = 2 ^ (64 * n) := by
  induction a generalizing n with
  | nil =>
    have := valid_nil.1 ha
    subst this
    simp [limbsValue, not]
  | cons x t ih =>
    cases n with
    | zero => simp [LimbsValid] at ha
    | succ n =>
      obtain ⟨hx, ht⟩ := valid_cons.1 ha
      have := ih ht
      rw [two_pow_limbs, ← this]
      simp only [not, List.map_cons, limbsValue]
      omega

theorem lt_iff {n : ℕ} {a b : List ℕ} (ha : LimbsValid n a) (hb : LimbsValid n b) :
    lt a b = true ↔ limbsValue a < limbsValue b := by
  induction a generalizing n b with
  | nil =>
    have := valid_nil.1 ha
    subst this
    have := List.length_eq_zero_iff.1 hb.1
    subst this
    simp [lt, limbsValue]
  | cons x t ih =>
    cases n with
    | zero => simp [LimbsValid] at ha
    | succ n =>
      cases b with
      | nil => simp [LimbsValid] at hb
      | cons y u =>
        obtain ⟨hx, ht⟩ := valid_cons.1 ha
        obtain ⟨hy, hu⟩ := valid_cons.1 hb
        have key := ih ht hu
        simp only [lt, limbsValue]
        split
        · rename_i h
          have := key.1 h
          simp only [true_iff]
          omega
        · rename_i h
          have hge : ¬ limbsValue t < limbsValue u := fun h' => h (key.2 h')
          split
          · rename_i he
            subst he
            simp
          · rename_i he
            have : limbsValue t ≠ limbsValue u := fun h' => he (limbsValue_inj ht hu h')
            simp only [Bool.false_eq_true, false_iff]
            omega

theorem limbsValue_append (a b : List ℕ) : limbsValue (a ++ b) = limbsValue a + 2 ^ (64 * a.length) * limbsValue b := by
  induction a with
  | nil => simp [limbsValue]
  | cons x t ih =>
    simp only [List.cons_append, limbsValue, ih, List.length_cons]
    rw [two_pow_limbs]
    ring

theorem numBitsFrom_iff {l : List ℕ} (h : ∀ x ∈ l, x < 2 ^ 64) (k : ℕ) :
    numBitsFrom (64 * l.length) l ≤ k ↔ limbsValue l.reverse < 2 ^ k := by
  induction l with
  | nil => simp [numBitsFrom, limbsValue]
  | cons x t ih =>
    have hx : x < 2 ^ 64 := h x (by simp)
    have ht : ∀ y ∈ t, y < 2 ^ 64 := fun y hy => h y (by simp [hy])
    have hA : limbsValue t.reverse < 2 ^ (64 * t.length) := by
      have := limbsValue_lt (n := t.length) (l := t.reverse) ⟨by simp, fun y hy => ht y (by simpa using hy)⟩
      exact this
    have hz := leadingZeros_iff hx
    have hle := leadingZeros_le 64 x
    rw [List.reverse_cons, limbsValue_append]
    simp only [limbsValue, List.length_reverse, numBitsFrom, List.length_cons, Nat.mul_zero, Nat.add_zero]
    split
    · rename_i h64
      have hx0 : x = 0 := by
        have := (hz 0).1 (by omega)
        simpa using this
      have e : 64 * (t.length + 1) - 64 = 64 * t.length := by omega
      rw [e, ih ht, hx0, Nat.mul_zero, Nat.add_zero]
    · rename_i h64
      have hx0 : x ≠ 0 := by
        rintro rfl
        have := (hz 0).2 (by norm_num)
        omega
      generalize limbsValue t.reverse = A at *
      generalize hm : 64 * t.length = m at *
      have em : 64 * (t.length + 1) = m + 64 := by omega
      rw [em]
      by_cases hk : k < m
      · have h1 : 2 ^ k ≤ 2 ^ m := Nat.pow_le_pow_right (by norm_num) (by omega)
        have h2 : 2 ^ m ≤ 2 ^ m * x := Nat.le_mul_of_pos_right _ (by omega)
        constructor
        · intro h'
          omega
        · intro h'
          omega
      · obtain ⟨j, rfl⟩ := Nat.exists_eq_add_of_le (Nat.le_of_not_lt hk)
        rw [pow_add]
        have e1 : m + 64 - leadingZeros 64 x ≤ m + j ↔ 64 - leadingZeros 64 x ≤ j := by omega
        rw [e1, hz j]
        constructor
        · intro h'
          have : 2 ^ m * x + 2 ^ m ≤ 2 ^ m * 2 ^ j := by
            rw [← Nat.mul_succ]
            exact Nat.mul_le_mul_left _ h'
          omega
        · intro h'
          have : 2 ^ m * x < 2 ^ m * 2 ^ j := by omega
          exact lt_of_mul_lt_mul_left this (Nat.zero_le _)

theorem tail_zero_iff {n : ℕ} {l : List ℕ} (hv : LimbsValid n l) : l.all (· = 0) = true ↔ limbsValue l = 0 := by
  induction l generalizing n with
  | nil => simp [limbsValue]
  | cons x t ih =>
    cases n with
    | zero => simp [LimbsValid] at hv
    | succ n =>
      have := ih (valid_cons.1 hv).2
      simp only [List.all_cons, limbsValue, Bool.and_eq_true, decide_eq_true_eq, this]
      omega

theorem tryIntoU64_iff {n m : ℕ} {l : List ℕ} (hv : LimbsValid (n + 1) l) :
    tryIntoU64 l = some m ↔ limbsValue l = m ∧ m < 2 ^ 64 := by
  cases l with
  | nil => simp [LimbsValid] at hv
  | cons x t =>
    obtain ⟨hx, ht⟩ := valid_cons.1 hv
    have hz := tail_zero_iff ht
    have e : tryIntoU64 (x :: t) = if (t.all fun x => decide (x = 0)) = true then some x else none := rfl
    rw [e]
    simp only [limbsValue]
    by_cases h : (t.all fun x => decide (x = 0)) = true
    · rw [if_pos h, hz.1 h]
      simp only [Option.some.injEq]
      omega
    · have : limbsValue t ≠ 0 := fun h' => h (hz.2 h')
      rw [if_neg h]
      simp only [reduceCtorEq, false_iff]
      omega

theorem replicate_zero_valid (n : ℕ) : LimbsValid n (List.replicate n 0) ∧ limbsValue (List.replicate n 0) = 0 := by
  induction n with
  | zero => simp [LimbsValid, limbsValue]
  | succ n ih =>
    rw [List.replicate_succ]
    refine ⟨valid_cons.2 ⟨by norm_num, ih.1⟩, ?_⟩
    simp [limbsValue, ih.2]

theorem replicate_max_valid (n : ℕ) : LimbsValid n (List.replicate n (2 ^ 64 - 1)) ∧
    limbsValue (List.replicate n (2 ^ 64 - 1)) = 2 ^ (64 * n) - 1 := by
  induction n with
  | zero => simp [LimbsValid, limbsValue]
  | succ n ih =>
    rw [List.replicate_succ]
    refine ⟨valid_cons.2 ⟨by norm_num, ih.1⟩, ?_⟩
    rw [limbsValue, ih.2, two_pow_limbs]
    have := Nat.two_pow_pos (64 * n)
    omega

theorem tryFromBig_ok {n a : ℕ} (h : a < 2 ^ (64 * n)) :
    ∃ c, tryFromBig n a = .ok c ∧ LimbsValid n c ∧ toArbitrary c = a := by
  refine ⟨ofNat n a, by rw [tryFromBig, if_pos h], ofNat_valid n a, ?_⟩
  rw [toArbitrary_eq (ofNat_valid n a).2, limbsValue_ofNat, Nat.mod_eq_of_lt h]

end LimbInt

open LimbInt in
theorem limbInt_fixedWidth {n : ℕ} (hn : 0 < n) : FixedWidth (limbInt n) (LimbsValid n) := by
  have hw : n * 64 = 64 * n := Nat.mul_comm _ _
  have h64 : (2 : ℕ) ^ 64 ≤ 2 ^ (64 * n) := Nat.pow_le_pow_right (by norm_num) (by omega)
  have tv : ∀ {l : List ℕ}, LimbsValid n l → LimbInt.toArbitrary l = limbsValue l := fun h => toArbitrary_eq h.2
  exact {
    lt := fun a h => by
      show LimbInt.toArbitrary a < 2 ^ (n * 64)
      rw [tv h, hw]
      exact limbsValue_lt h
    unique := fun a b ha hb h => by
      have h' : LimbInt.toArbitrary a = LimbInt.toArbitrary b := h
      rw [tv ha, tv hb] at h'
      exact limbsValue_inj ha hb h'
    ofCanonical := fun a h => by
      have h' : a < 2 ^ (n * 64) := h
      refine ⟨ofNat_valid n a, ?_⟩
      show LimbInt.toArbitrary (ofNat n a) = a
      rw [tv (ofNat_valid n a), limbsValue_ofNat, Nat.mod_eq_of_lt (by rwa [← hw])]
    fromU64 := fun a h => by
      refine ⟨ofNat_valid n a, ?_⟩
      show LimbInt.toArbitrary (ofNat n a) = a % 2 ^ (n * 64)
      rw [tv (ofNat_valid n a), limbsValue_ofNat, hw]
    fromU32 := fun a h => by
      refine ⟨ofNat_valid n a, ?_⟩
      show LimbInt.toArbitrary (ofNat n a) = a
      rw [tv (ofNat_valid n a), limbsValue_ofNat, Nat.mod_eq_of_lt (by omega)]
    zero := ⟨(replicate_zero_valid n).1, by
      show LimbInt.toArbitrary (List.replicate n 0) = 0
      rw [tv (replicate_zero_valid n).1, (replicate_zero_valid n).2]⟩
    one := ⟨ofNat_valid n 1, by
      show LimbInt.toArbitrary (ofNat n 1) = 1
      rw [tv (ofNat_valid n 1), limbsValue_ofNat, Nat.mod_eq_of_lt (by omega)]⟩
    max := ⟨(replicate_max_valid n).1, by
      show LimbInt.toArbitrary (List.replicate n (2 ^ 64 - 1)) = 2 ^ (n * 64) - 1
      rw [tv (replicate_max_valid n).1, (replicate_max_valid n).2, hw]⟩
    add := fun a b ha hb h => by
      have h' : LimbInt.toArbitrary a + LimbInt.toArbitrary b < 2 ^ (n * 64) := h
      refine ⟨addCarry 0 a b, rfl, addCarry_valid ha hb, ?_⟩
      show LimbInt.toArbitrary (addCarry 0 a b) = LimbInt.toArbitrary a + LimbInt.toArbitrary b
      rw [hw] at h'
      rw [tv ha, tv hb] at h' ⊢
      rw [tv (addCarry_valid ha hb), limbsValue_addCarry ha hb, Nat.add_zero, Nat.mod_eq_of_lt h']
    sub := fun a b ha hb h => by
      have h' : LimbInt.toArbitrary b ≤ LimbInt.toArbitrary a := h
      refine ⟨subBorrow 0 a b, rfl, subBorrow_valid ha hb, ?_⟩
      show LimbInt.toArbitrary (subBorrow 0 a b) = LimbInt.toArbitrary a - LimbInt.toArbitrary b
      rw [tv ha, tv hb] at h' ⊢
      rw [tv (subBorrow_valid ha hb)]
      have key := limbsValue_subBorrow (c := 0) (by omega) ha hb
      have h1 := limbsValue_lt ha
      have h2 := limbsValue_lt (subBorrow_valid (c := 0) ha hb)
      generalize limbsValue (subBorrow 0 a b) = R at *
      rw [Nat.add_zero] at key
      by_cases hlt : R + limbsValue b < 2 ^ (64 * n)
      · rw [Nat.mod_eq_of_lt hlt] at key
        omega
      · rw [Nat.mod_eq_sub_mod (by omega), Nat.mod_eq_of_lt (by omega)] at key
        omega
    shl := fun a k ha _ h => by
      have h' : LimbInt.toArbitrary a * 2 ^ k < 2 ^ (n * 64) := h
      rw [hw] at h'
      show Returns (limbInt n) (LimbsValid n) (tryFromBig n (LimbInt.toArbitrary a <<< k)) _
      rw [Nat.shiftLeft_eq]
      exact tryFromBig_ok h'
    shr := fun a k ha _ => by
      show Returns (limbInt n) (LimbsValid n) (tryFromBig n (LimbInt.toArbitrary a >>> k)) _
      rw [Nat.shiftRight_eq_div_pow]
      exact tryFromBig_ok (lt_of_le_of_lt (Nat.div_le_self _ _) (by rw [tv ha]; exact limbsValue_lt ha))
    and := fun a b ha hb => by
      have hf : ∀ x y, x < 2 ^ 64 → y < 2 ^ 64 → x &&& y < 2 ^ 64 := fun x y hx _ => lt_of_le_of_lt Nat.and_le_left hx
      refine ⟨zip_valid hf ha hb, fun i => ?_⟩
      show (LimbInt.toArbitrary (zip (· &&& ·) a b)).testBit i =
        ((LimbInt.toArbitrary a).testBit i && (LimbInt.toArbitrary b).testBit i)
      rw [tv (zip_valid hf ha hb), tv ha, tv hb]
      exact testBit_zip hf (fun x y i => Nat.testBit_and x y i) rfl ha hb i
    or := fun a b ha hb => by
      have hf : ∀ x y, x < 2 ^ 64 → y < 2 ^ 64 → x ||| y < 2 ^ 64 := fun x y hx hy => Nat.or_lt_two_pow hx hy
      refine ⟨zip_valid hf ha hb, fun i => ?_⟩
      show (LimbInt.toArbitrary (zip (· ||| ·) a b)).testBit i =
        ((LimbInt.toArbitrary a).testBit i || (LimbInt.toArbitrary b).testBit i)
      rw [tv (zip_valid hf ha hb), tv ha, tv hb]
      exact testBit_zip hf (fun x y i => Nat.testBit_or x y i) rfl ha hb i
    xor := fun a b ha hb => by
      have hf : ∀ x y, x < 2 ^ 64 → y < 2 ^ 64 → x ^^^ y < 2 ^ 64 := fun x y hx hy => Nat.xor_lt_two_pow hx hy
      refine ⟨zip_valid hf ha hb, fun i => ?_⟩
      show (LimbInt.toArbitrary (zip (· ^^^ ·) a b)).testBit i =
        ((LimbInt.toArbitrary a).testBit i ^^ (LimbInt.toArbitrary b).testBit i)
      rw [tv (zip_valid hf ha hb), tv ha, tv hb]
      exact testBit_zip hf (fun x y i => Nat.testBit_xor x y i) rfl ha hb i
    not := fun a ha => by
      refine ⟨not_valid ha, ?_⟩
      show LimbInt.toArbitrary a + LimbInt.toArbitrary (LimbInt.not a) + 1 = 2 ^ (n * 64)
      rw [tv ha, tv (not_valid ha), hw]
      exact limbsValue_not ha
    eq := fun (a b : List ℕ) ha hb => by
      show decide (a = b) = true ↔ LimbInt.toArbitrary a = LimbInt.toArbitrary b
      rw [tv ha, tv hb, decide_eq_true_eq]
      exact ⟨fun h => by rw [h], fun h => limbsValue_inj ha hb h⟩
    less := fun a b ha hb => by
      show LimbInt.lt a b = true ↔ LimbInt.toArbitrary a < LimbInt.toArbitrary b
      rw [tv ha, tv hb]
      exact lt_iff ha hb
    isZero := fun a ha => by
      show a.all (· = 0) = true ↔ LimbInt.toArbitrary a = 0
      rw [tv ha]
      exact tail_zero_iff ha
    isOne := fun (a : List ℕ) ha => by
      show decide (a = ofNat n 1) = true ↔ LimbInt.toArbitrary a = 1
      have h1 : limbsValue (ofNat n 1) = 1 := by
        rw [limbsValue_ofNat, Nat.mod_eq_of_lt (by omega)]
      rw [tv ha, decide_eq_true_eq]
      constructor
      · rintro rfl
        exact h1
      · intro h
        exact limbsValue_inj ha (ofNat_valid n 1) (by rw [h, h1])
    numBits := fun (a : List ℕ) k ha => by
      show numBitsFrom (64 * n) a.reverse ≤ k ↔ LimbInt.toArbitrary a < 2 ^ k
      rw [tv ha]
      have := numBitsFrom_iff (l := a.reverse) (fun x hx => ha.2 x (by simpa using hx)) k
      rwa [List.length_reverse, ha.1, List.reverse_reverse] at this
    tryIntoU64 := fun a m ha => by
      show LimbInt.tryIntoU64 a = some m ↔ LimbInt.toArbitrary a = m ∧ m < 2 ^ 64
      rw [tv ha]
      obtain ⟨k, rfl⟩ := Nat.exists_eq_succ_of_ne_zero (by omega : n ≠ 0)
      exact tryIntoU64_iff ha
    tryIntoU32 := fun a m ha => by
      show LimbInt.tryIntoU32 a = some m ↔ LimbInt.toArbitrary a = m ∧ m < 2 ^ 32
      rw [tv ha]
      obtain ⟨k, rfl⟩ := Nat.exists_eq_succ_of_ne_zero (by omega : n ≠ 0)
      unfold LimbInt.tryIntoU32
      rw [Option.bind_eq_some_iff]
      constructor
      · rintro ⟨v, h1, h2⟩
        have := (tryIntoU64_iff ha).1 h1
        split_ifs at h2 with h3
        simp only [Option.some.injEq] at h2
        omega
      · rintro ⟨h1, h2⟩
        refine ⟨m, (tryIntoU64_iff ha).2 ⟨h1, by omega⟩, by rw [if_pos h2]⟩
    fromHex := fun a h => by
      have h' : a < 2 ^ (n * 64) := h
      have e : FieldKind.bigFromStr 16 (Nat.toDigits 16 a) = some a := by
        have h1 := fromStrRadix_toDigits (limit := a + 1) (radix := 16) (n := a) (by norm_num) (by norm_num) (by omega)
        rw [FieldKind.fromStrRadix_eq] at h1
        split at h1
        · cases h1
        · rename_i m hm
          split_ifs at h1
          rw [hm, h1]
      show Returns (limbInt n) (LimbsValid n) (LimbInt.fromHex n _) _
      rw [LimbInt.fromHex, e]
      exact tryFromBig_ok (by rwa [← hw])
  }

/-! ## Range constraints -/

section
variable {I : IntOps} {valid : I.Carrier → Prop} {p : ℕ} [Fact p.Prime]

namespace FixedWidth

theorem and_eq (F : FixedWidth I valid) {a b : I.Carrier} (ha : valid a) (hb : valid b) :
    I.toArbitrary (I.and a b) = I.toArbitrary a &&& I.toArbitrary b := by
  refine Nat.eq_of_testBit_eq fun i => ?_
  rw [(F.and a b ha hb).2 i, Nat.testBit_and]

theorem or_eq (F : FixedWidth I valid) {a b : I.Carrier} (ha : valid a) (hb : valid b) :
    I.toArbitrary (I.or a b) = I.toArbitrary a ||| I.toArbitrary b := by
  refine Nat.eq_of_testBit_eq fun i => ?_
  rw [(F.or a b ha hb).2 i, Nat.testBit_or]

theorem eq_eq (F : FixedWidth I valid) {a b : I.Carrier} (ha : valid a) (hb : valid b) :
    I.eq a b = decide (I.toArbitrary a = I.toArbitrary b) := by
  rw [Bool.eq_iff_iff, F.eq a b ha hb, decide_eq_true_eq]

theorem lt_eq (F : FixedWidth I valid) {a b : I.Carrier} (ha : valid a) (hb : valid b) :
    I.lt a b = decide (I.toArbitrary a < I.toArbitrary b) := by
  rw [Bool.eq_iff_iff, F.less a b ha hb, decide_eq_true_eq]

theorem numBits_eq (F : FixedWidth I valid) {a : I.Carrier} (ha : valid a) :
    I.numBits a = Verif.numBits (I.toArbitrary a) := by
  apply le_antisymm
  · rw [F.numBits a _ ha]
    exact lt_two_pow_numBits _
  · rw [numBits_le_iff]
    exact (F.numBits a _ ha).1 le_rfl

end FixedWidth

namespace MachineRange

open FixedWidth

theorem toInt_ok (F : FixedWidth I valid) (hp : p < 2 ^ I.width) (a : ZMod p) :
    valid (toInt I a) ∧ I.toArbitrary (toInt I a) = a.val :=
  F.ofCanonical a.val (lt_trans (ZMod.val_lt a) hp)

omit [Fact p.Prime] in
theorem modulus_ok (F : FixedWidth I valid) (hp : p < 2 ^ I.width) :
    valid (modulus I p) ∧ I.toArbitrary (modulus I p) = p := F.ofCanonical p hp

theorem maskFromBits_ok (F : FixedWidth I valid) {bits : ℕ} (h : bits ≤ I.width) :
    Returns I valid (maskFromBits I bits) (Verif.maskFromBits bits) := by
  unfold maskFromBits Verif.maskFromBits
  split
  · rename_i h0
    subst h0
    exact ⟨I.zero, rfl, F.zero.1, F.zero.2⟩
  · rename_i h0
    obtain ⟨hv, hn⟩ := F.not I.zero F.zero.1
    obtain ⟨c, hc, hcv, hcn⟩ := F.shr _ (I.width - bits) hv (by omega)
    refine ⟨c, hc, hcv, ?_⟩
    rw [hcn]
    have e : I.toArbitrary (I.not I.zero) = 2 ^ (I.width - bits) * (2 ^ bits - 1) + (2 ^ (I.width - bits) - 1) := by
      have e1 : 2 ^ I.width = 2 ^ (I.width - bits) * 2 ^ bits := by
        rw [← pow_add]
        congr 1
        omega
      have h1 := Nat.two_pow_pos (I.width - bits)
      have h2 := Nat.two_pow_pos bits
      rw [F.zero.2, Nat.zero_add, e1] at hn
      have e2 : 2 ^ (I.width - bits) * (2 ^ bits - 1) + 2 ^ (I.width - bits) = 2 ^ (I.width - bits) * 2 ^ bits := by
        rw [← Nat.mul_succ]
        congr 1
        omega
      omega
    have h1 := Nat.two_pow_pos (I.width - bits)
    rw [e, Nat.mul_add_div h1, Nat.div_eq_of_lt (by omega), Nat.add_zero]

theorem numBits_toInt (F : FixedWidth I valid) (hp : p < 2 ^ I.width) (a : ZMod p) :
    I.numBits (toInt I a) = Verif.numBits a.val ∧ Verif.numBits a.val ≤ I.width := by
  refine ⟨?_, ?_⟩
  · rw [F.numBits_eq (toInt_ok F hp a).1, (toInt_ok F hp a).2]
  · rw [numBits_le_iff]
    exact lt_trans (ZMod.val_lt a) hp

theorem maskFor_ok (F : FixedWidth I valid) (hp : p < 2 ^ I.width) (a : ZMod p) :
    Returns I valid (maskFromBits I (I.numBits (toInt I a))) (Verif.maskFromBits (Verif.numBits a.val)) := by
  rw [(numBits_toInt F hp a).1]
  exact maskFromBits_ok F (numBits_toInt F hp a).2

theorem fromRange_gives (F : FixedWidth I valid) (hp : p < 2 ^ I.width) (min max : ZMod p) :
    Gives valid (fromRange I min max) (RangeConstraint.fromRange min max) := by
  unfold fromRange RangeConstraint.fromRange
  by_cases h : fle min max
  · obtain ⟨c, hc, hv, hn⟩ := maskFor_ok F hp max
    refine ⟨⟨c, min, max⟩, ?_, hv, ?_⟩
    · simp only [if_pos h, hc, bind, Except.bind, pure, Except.pure]
    · simp only [abs, hn, if_pos h]
  · obtain ⟨c, hc, hv, hn⟩ := maskFor_ok F hp (-1 : ZMod p)
    refine ⟨⟨c, min, max⟩, ?_, hv, ?_⟩
    · simp only [if_neg h, unconstrainedMask, hc, bind, Except.bind, pure, Except.pure]
    · simp only [abs, hn, if_neg h, RangeConstraint.unconstrainedMask]

theorem unconstrained_gives (F : FixedWidth I valid) (hp : p < 2 ^ I.width) :
    Gives valid (unconstrained I : Except Panic (MachineRange I p)) RangeConstraint.unconstrained :=
  fromRange_gives F hp 0 (-1)

theorem toField_ok {c : I.Carrier} (h : I.toArbitrary c < p) :
    toField p c = .ok (I.toArbitrary c : ZMod p) := by rw [toField, if_pos h]

theorem minInt_ok (F : FixedWidth I valid) {a b : I.Carrier} (ha : valid a) (hb : valid b) :
    I.toArbitrary (minInt a b) = Nat.min (I.toArbitrary a) (I.toArbitrary b) := by
  unfold minInt
  rw [F.lt_eq hb ha]
  simp only [decide_eq_true_eq, Nat.min_def]
  split <;> split <;> omega

theorem fromMask_gives (F : FixedWidth I valid) (hp : p < 2 ^ I.width) {mask : I.Carrier} (hm : valid mask) :
    Gives valid (fromMask mask : Except Panic (MachineRange I p)) (RangeConstraint.fromMask (I.toArbitrary mask)) := by
  obtain ⟨h1, h2⟩ := toInt_ok F hp (-1 : ZMod p)
  have hmin := minInt_ok F hm h1
  have hlt : I.toArbitrary (minInt mask (toInt I (-1 : ZMod p))) < p := by
    rw [hmin, h2]
    exact lt_of_le_of_lt (Nat.min_le_right _ _) (ZMod.val_lt _)
  refine ⟨⟨mask, 0, (I.toArbitrary (minInt mask (toInt I (-1 : ZMod p))) : ZMod p)⟩, ?_, hm, ?_⟩
  · simp only [fromMask, toField_ok hlt, bind, Except.bind, pure, Except.pure]
  · simp only [abs, RangeConstraint.fromMask, hmin, h2]

theorem fromMaxBit_gives (F : FixedWidth I valid) (hp : p < 2 ^ I.width) {k : ℕ} :
    match (RangeConstraint.fromMaxBit I.width k : Option (RangeConstraint p)) with
    | some r => Gives valid (fromMaxBit I k) r
    | none => (fromMaxBit I k : Except Panic (MachineRange I p)) = .error .assertion := by
  unfold RangeConstraint.fromMaxBit
  by_cases h : k + 1 ≤ I.width
  · simp only [if_pos h]
    obtain ⟨c, hc, hv, hn⟩ := maskFromBits_ok F h
    have := fromMask_gives (p := p) F hp hv
    rw [hn] at this
    simp only [fromMaxBit, hc, bind, Except.bind]
    exact this
  · simp only [if_neg h]
    simp only [fromMaxBit, maskFromBits, if_neg h, bind, Except.bind]
    rfl

theorem fromValue_gives (F : FixedWidth I valid) (hp : p < 2 ^ I.width) (v : ZMod p) :
    valid (fromValue I v).mask ∧ (fromValue I v).abs = RangeConstraint.fromValue v := by
  refine ⟨(toInt_ok F hp v).1, ?_⟩
  simp only [abs, fromValue, RangeConstraint.fromValue, (toInt_ok F hp v).2]

theorem rangeWidth_ok (F : FixedWidth I valid) (hp : p < 2 ^ I.width) (min max : ZMod p) :
    valid (rangeWidth I min max) ∧ I.toArbitrary (rangeWidth I min max) = Verif.rangeWidth min max := by
  unfold rangeWidth Verif.rangeWidth
  split
  · exact modulus_ok F hp
  · exact toInt_ok F hp _

theorem width_ok (F : FixedWidth I valid) (hp : p < 2 ^ I.width) (r : MachineRange I p) :
    valid r.width ∧ I.toArbitrary r.width = r.abs.width := rangeWidth_ok F hp r.min r.max

theorem isUnconstrained_ok (F : FixedWidth I valid) (hp : p < 2 ^ I.width) {r : MachineRange I p} (hr : valid r.mask) :
    r.isUnconstrained = .ok r.abs.isUnconstrained := by
  obtain ⟨u, hu, hv, hn⟩ := unconstrained_gives (p := p) F hp
  have hm : I.toArbitrary u.mask = (RangeConstraint.unconstrained : RangeConstraint p).mask := by
    rw [← hn]
    rfl
  unfold isUnconstrained RangeConstraint.isUnconstrained
  simp only [hu, bind, Except.bind, pure, Except.pure]
  rw [F.eq_eq (width_ok F hp r).1 (width_ok F hp u).1, F.eq_eq (F.and _ _ hr hv).1 hv, F.and_eq hr hv,
    (width_ok F hp r).2, (width_ok F hp u).2, hn, hm]
  rfl

theorem inMask_ok (F : FixedWidth I valid) (hp : p < 2 ^ I.width) {m : I.Carrier} (hm : valid m) (v : ZMod p) :
    I.eq (I.and (toInt I v) m) (toInt I v) = decide (v.val &&& I.toArbitrary m = v.val) := by
  have h := toInt_ok F hp v
  rw [F.eq_eq (F.and _ _ h.1 hm).1 h.1, F.and_eq h.1 hm, h.2]

theorem allowsValue_ok (F : FixedWidth I valid) (hp : p < 2 ^ I.width) {r : MachineRange I p} (hr : valid r.mask)
    (v : ZMod p) : r.allowsValue v = r.abs.allowsValue v := by
  unfold allowsValue RangeConstraint.allowsValue
  rw [inMask_ok F hp hr]
  have e : fle r.abs.min r.abs.max ↔ fle r.min r.max := Iff.rfl
  by_cases h : fle r.min r.max
  · rw [if_pos h, if_pos (e.2 h)]
    rfl
  · rw [if_neg h, if_neg (fun x => h (e.1 x))]
    rfl

theorem tighten_gives (F : FixedWidth I valid) (hp : p < 2 ^ I.width) {m : I.Carrier} (hm : valid m) (min max : ZMod p) :
    Gives valid (tighten m min max) ⟨if fle min max then I.toArbitrary m &&& (RangeConstraint.fromRange min max).mask
      else I.toArbitrary m, min, max⟩ := by
  unfold tighten
  by_cases h : fle min max
  · obtain ⟨r, hr, hv, hn⟩ := fromRange_gives F hp min max
    refine ⟨⟨I.and m r.mask, min, max⟩, ?_, (F.and _ _ hm hv).1, ?_⟩
    · simp only [if_pos h, hr, bind, Except.bind, pure, Except.pure]
    · simp only [abs, if_pos h, F.and_eq hm hv, ← hn]
  · refine ⟨⟨m, min, max⟩, ?_, hm, ?_⟩
    · simp only [if_neg h, bind, Except.bind, pure, Except.pure]
    · simp only [abs, if_neg h]

theorem combineSum_gives (F : FixedWidth I valid) (hp : p < 2 ^ I.width) {a b : MachineRange I p} (ha : valid a.mask)
    (hb : valid b.mask) : Gives valid (a.combineSum b) (a.abs.combineSum b.abs) := by
  obtain ⟨u, hu, hv, hn⟩ := unconstrained_gives (p := p) F hp
  have hmask : I.toArbitrary u.mask = (RangeConstraint.unconstrained : RangeConstraint p).mask := by rw [← hn]; rfl
  have hmin : u.min = (RangeConstraint.unconstrained : RangeConstraint p).min := by rw [← hn]; rfl
  have hmax : u.max = (RangeConstraint.unconstrained : RangeConstraint p).max := by rw [← hn]; rfl
  have hmod := (modulus_ok (p := p) F hp).2
  have key : ∃ m, (if I.toArbitrary a.mask + I.toArbitrary b.mask ≥ I.toArbitrary (modulus I p) then
        (Except.ok u.mask : Except Panic I.Carrier)
      else match I.add a.mask b.mask with
        | .error e => .error e
        | .ok s => .ok (I.or (I.or s a.mask) b.mask)) = .ok m ∧ valid m ∧
      I.toArbitrary m = if a.abs.mask + b.abs.mask ≥ p then (RangeConstraint.unconstrained : RangeConstraint p).mask
        else (a.abs.mask + b.abs.mask) ||| a.abs.mask ||| b.abs.mask := by
    rw [hmod]
    have e1 : a.abs.mask = I.toArbitrary a.mask := rfl
    have e2 : b.abs.mask = I.toArbitrary b.mask := rfl
    rw [e1, e2]
    by_cases h : I.toArbitrary a.mask + I.toArbitrary b.mask ≥ p
    · exact ⟨u.mask, by rw [if_pos h], hv, by rw [if_pos h, hmask]⟩
    · obtain ⟨s, hs, hsv, hsn⟩ := F.add a.mask b.mask ha hb (by omega)
      have h1 := F.or s a.mask hsv ha
      refine ⟨I.or (I.or s a.mask) b.mask, by rw [if_neg h, hs], (F.or _ _ h1.1 hb).1, ?_⟩
      rw [if_neg h, F.or_eq h1.1 hb, F.or_eq hsv ha, hsn]
  obtain ⟨m, hm, hmv, hmn⟩ := key
  have hwa := (width_ok F hp a).2
  have hwb := (width_ok F hp b).2
  have hwu := (width_ok F hp u).2
  have hrun : a.combineSum b = if a.abs.width + b.abs.width ≤ (RangeConstraint.unconstrained : RangeConstraint p).width
      then tighten m (a.min + b.min) (a.max + b.max) else tighten m u.min u.max := by
    unfold combineSum
    simp only [hu, bind, Except.bind, pure, Except.pure] at hm ⊢
    rw [hwa, hwb, hwu, hn]
    by_cases h : I.toArbitrary a.mask + I.toArbitrary b.mask ≥ I.toArbitrary (modulus I p)
    · rw [if_pos h] at hm ⊢
      cases hm
      rfl
    · rw [if_neg h] at hm ⊢
      cases hadd : I.add a.mask b.mask with
      | error e => simp [hadd] at hm
      | ok s =>
        simp only [hadd, Except.ok.injEq] at hm
        subst hm
        rfl
  rw [hrun]
  unfold RangeConstraint.combineSum
  rw [← hmn]
  by_cases h : a.abs.width + b.abs.width ≤ (RangeConstraint.unconstrained : RangeConstraint p).width
  · rw [if_pos h, if_pos h]
    exact tighten_gives F hp hmv _ _
  · rw [if_neg h, if_neg h, hmin, hmax]
    exact tighten_gives F hp hmv _ _

theorem rangeMultiple_ok (F : FixedWidth I valid) (hp : p < 2 ^ I.width) (min max f : ZMod p) :
    rangeMultiple I min max f = RangeConstraint.rangeMultiple min max f := by
  unfold rangeMultiple RangeConstraint.rangeMultiple
  rw [(rangeWidth_ok F hp min max).2, (modulus_ok F hp).2]

theorem multipleInterval_ok (F : FixedWidth I valid) (hp : p < 2 ^ I.width) (r : MachineRange I p) (f : ZMod p) :
    r.multipleInterval f = if isInLowerHalf f then RangeConstraint.rangeMultiple r.min r.max f
      else RangeConstraint.rangeMultiple (-r.max) (-r.min) (-f) := by
  unfold multipleInterval
  rw [rangeMultiple_ok F hp, rangeMultiple_ok F hp]

theorem shiftedMask_ok (F : FixedWidth I valid) (hp : p < 2 ^ I.width) {r : MachineRange I p} (hr : valid r.mask)
    (f : ZMod p) : ∃ o, r.shiftedMask f = .ok o ∧ (∀ m ∈ o, valid m) ∧
      o.map I.toArbitrary = (log2Exact f.val).bind fun exponent =>
        if r.abs.mask <<< exponent < p then some (r.abs.mask <<< exponent) else none := by
  unfold shiftedMask
  have e : r.abs.mask = I.toArbitrary r.mask := rfl
  rw [e]
  cases hl : log2Exact f.val with
  | none => exact ⟨none, rfl, by simp, rfl⟩
  | some k =>
    simp only [(modulus_ok (p := p) F hp).2, Option.bind_some]
    by_cases h : I.toArbitrary r.mask <<< k < p
    · have hk : k < I.width := by
        have h1 := log2Exact_eq_some hl
        have h2 := ZMod.val_lt f
        have : 2 ^ k < 2 ^ I.width := by omega
        exact (Nat.pow_lt_pow_iff_right (by norm_num)).1 this
      rw [Nat.shiftLeft_eq] at h
      obtain ⟨c, hc, hv, hn⟩ := F.shl r.mask k hr hk (by omega)
      refine ⟨some c, ?_, by simpa using hv, ?_⟩
      · rw [Nat.shiftLeft_eq, if_pos h, hc]
        rfl
      · rw [Nat.shiftLeft_eq, if_pos h, Option.map_some, hn]
    · refine ⟨none, ?_, by simp, ?_⟩
      · rw [if_neg h]
      · rw [if_neg h]
        rfl

theorem multiple_gives (F : FixedWidth I valid) (hp : p < 2 ^ I.width) {r : MachineRange I p} (hr : valid r.mask)
    (f : ZMod p) : Gives valid (r.multiple f) (r.abs.multiple f) := by
  obtain ⟨o, ho, hv, hn⟩ := shiftedMask_ok F hp hr f
  unfold multiple RangeConstraint.multiple
  rw [← hn]
  have e1 : r.abs.min = r.min := rfl
  have e2 : r.abs.max = r.max := rfl
  rw [e1, e2]
  simp only [ho, bind, Except.bind]
  rw [multipleInterval_ok F hp]
  cases o with
  | some m =>
    refine ⟨_, rfl, hv m rfl, ?_⟩
    simp only [abs, Option.map_some, Option.getD_some]
  | none =>
    simp only [Option.map_none, Option.getD_none]
    exact fromRange_gives F hp _ _

theorem tryToSingleValue_ok (F : FixedWidth I valid) (hp : p < 2 ^ I.width) {r : MachineRange I p} (hr : valid r.mask) :
    r.tryToSingleValue = r.abs.tryToSingleValue := by
  unfold tryToSingleValue RangeConstraint.tryToSingleValue
  rw [inMask_ok F hp hr]
  simp only [decide_eq_true_eq]
  rfl

theorem combineProduct_gives (F : FixedWidth I valid) (hp : p < 2 ^ I.width) {a b : MachineRange I p} (ha : valid a.mask)
    (hb : valid b.mask) : Gives valid (a.combineProduct b) (a.abs.combineProduct b.abs) := by
  unfold combineProduct RangeConstraint.combineProduct
  rw [tryToSingleValue_ok F hp ha, tryToSingleValue_ok F hp hb]
  cases b.abs.tryToSingleValue with
  | some v => exact multiple_gives F hp ha v
  | none =>
    cases a.abs.tryToSingleValue with
    | some v => exact multiple_gives F hp hb v
    | none =>
      simp only [(modulus_ok (p := p) F hp).2]
      have e1 : a.abs.min = a.min := rfl
      have e2 : a.abs.max = a.max := rfl
      have e3 : b.abs.min = b.min := rfl
      have e4 : b.abs.max = b.max := rfl
      rw [e1, e2, e3, e4]
      split
      · exact fromRange_gives F hp _ _
      · exact unconstrained_gives F hp

theorem square_gives (F : FixedWidth I valid) (hp : p < 2 ^ I.width) {r : MachineRange I p} (hr : valid r.mask) :
    Gives valid r.square r.abs.square := by
  unfold square RangeConstraint.square
  rw [(modulus_ok (p := p) F hp).2]
  have e1 : r.abs.min = r.min := rfl
  have e2 : r.abs.max = r.max := rfl
  simp only [e1, e2]
  split
  · exact fromRange_gives F hp _ _
  · exact combineProduct_gives F hp hr hr

theorem intervalIntersection_ok (F : FixedWidth I valid) (hp : p < 2 ^ I.width) (a b : ZMod p × ZMod p) :
    intervalIntersection I a b = RangeConstraint.intervalIntersection a b := by
  unfold intervalIntersection RangeConstraint.intervalIntersection
  simp only [attempt]
  rw [F.lt_eq (rangeWidth_ok F hp b.1 b.2).1 (rangeWidth_ok F hp a.1 a.2).1, (rangeWidth_ok F hp b.1 b.2).2,
    (rangeWidth_ok F hp a.1 a.2).2]
  cases h : (if fle (a.1 + -a.1) (a.2 + -a.1) ∧ fle (b.1 + -a.1) (b.2 + -a.1) then
      some (a.1, (a.1 + -a.1, a.2 + -a.1), (b.1 + -a.1, b.2 + -a.1)) else none).or
      (if fle (a.1 + -b.1) (a.2 + -b.1) ∧ fle (b.1 + -b.1) (b.2 + -b.1) then
      some (b.1, (a.1 + -b.1, a.2 + -b.1), (b.1 + -b.1, b.2 + -b.1)) else none) with
  | some x =>
    obtain ⟨s, x, y⟩ := x
    rfl
  | none =>
    simp only [decide_eq_true_eq]
    split <;> split <;> first | rfl | omega

theorem conjunction_gives (F : FixedWidth I valid) (hp : p < 2 ^ I.width) {a b : MachineRange I p} (ha : valid a.mask)
    (hb : valid b.mask) : Gives valid (a.conjunction b) (a.abs.conjunction b.abs) := by
  have hm := (F.and _ _ ha hb).1
  have hmn := F.and_eq ha hb
  unfold conjunction RangeConstraint.conjunction
  rw [intervalIntersection_ok F hp]
  have e1 : a.abs.min = a.min := rfl
  have e2 : a.abs.max = a.max := rfl
  have e3 : b.abs.min = b.min := rfl
  have e4 : b.abs.max = b.max := rfl
  have e5 : a.abs.mask &&& b.abs.mask = I.toArbitrary (I.and a.mask b.mask) := hmn.symm
  rw [e1, e2, e3, e4, e5]
  generalize hi : (RangeConstraint.intervalIntersection (a.min, a.max) (b.min, b.max)).getD (0, 0) = i
  generalize I.and a.mask b.mask = m at hm
  have key : conjunctionInterval m i = .ok (if I.toArbitrary m < p then
      if fle i.1 i.2 then (fmin (I.toArbitrary m : ZMod p) i.1, fmin (I.toArbitrary m : ZMod p) i.2)
      else if i.1.val > I.toArbitrary m then (0, fmin (I.toArbitrary m : ZMod p) i.2)
      else (i.1, i.2)
    else (i.1, i.2)) := by
    unfold conjunctionInterval
    rw [F.lt_eq hm (modulus_ok F hp).1, (modulus_ok (p := p) F hp).2, F.lt_eq hm (toInt_ok F hp _).1,
      (toInt_ok F hp _).2]
    simp only [decide_eq_true_eq]
    by_cases h1 : I.toArbitrary m < p
    · rw [if_pos h1, if_pos h1, toField_ok h1]
      by_cases h2 : fle i.1 i.2
      · rw [if_pos h2, if_pos h2]
        rfl
      · rw [if_neg h2, if_neg h2]
        by_cases h3 : I.toArbitrary m < i.1.val
        · rw [if_pos h3, if_pos h3]
          rfl
        · rw [if_neg h3, if_neg h3]
          rfl
    · rw [if_neg h1, if_neg h1]
      rfl
  simp only [key, bind, Except.bind]
  exact tighten_gives F hp hm _ _

theorem disjunction_gives (F : FixedWidth I valid) (hp : p < 2 ^ I.width) {a b : MachineRange I p} (ha : valid a.mask)
    (hb : valid b.mask) : Gives valid (a.disjunction b) (a.abs.disjunction b.abs) := by
  have hm := (F.or _ _ ha hb).1
  have hmn := F.or_eq ha hb
  have hf := fromMask_gives (p := p) F hp hm
  unfold disjunction RangeConstraint.disjunction
  have e1 : a.abs.min = a.min := rfl
  have e2 : a.abs.max = a.max := rfl
  have e3 : b.abs.min = b.min := rfl
  have e4 : b.abs.max = b.max := rfl
  have e5 : a.abs.mask ||| b.abs.mask = I.toArbitrary (I.or a.mask b.mask) := hmn.symm
  rw [e1, e2, e3, e4, e5]
  simp only
  split
  · split
    · exact ⟨_, rfl, hm, rfl⟩
    · exact hf
  · split
    · exact hf
    · split
      · exact hf
      · exact ⟨_, rfl, hm, rfl⟩

theorem isDisjoint_ok (F : FixedWidth I valid) (hp : p < 2 ^ I.width) {a b : MachineRange I p} (ha : valid a.mask)
    (hb : valid b.mask) : a.isDisjoint b = a.abs.isDisjoint b.abs := by
  have hz : I.isZero (I.and a.mask b.mask) = decide (I.toArbitrary a.mask &&& I.toArbitrary b.mask = 0) := by
    rw [Bool.eq_iff_iff, F.isZero _ (F.and _ _ ha hb).1, decide_eq_true_eq, F.and_eq ha hb]
  unfold isDisjoint RangeConstraint.isDisjoint
  rw [allowsValue_ok F hp ha, allowsValue_ok F hp hb, intervalIntersection_ok F hp, hz]
  rfl

theorem allowedValues_ok (F : FixedWidth I valid) (hp : p < 2 ^ I.width) {r : MachineRange I p} (hr : valid r.mask) :
    r.allowedValues = match r.abs.allowedValues with
      | some l => .ok l
      | none => .error .assertion := by
  have hw := width_ok F hp r
  have hall : (fun v => r.allowsValue v) = fun v => r.abs.allowsValue v := funext fun v => allowsValue_ok F hp hr v
  unfold allowedValues RangeConstraint.allowedValues
  by_cases h : r.abs.width < 2 ^ 32
  · rw [if_pos h, (F.tryIntoU32 r.width r.abs.width hw.1).2 ⟨hw.2, h⟩]
    simp only [hall]
    rfl
  · rw [if_neg h]
    have : I.tryIntoU32 r.width = none := by
      cases ht : I.tryIntoU32 r.width with
      | none => rfl
      | some n =>
        have := (F.tryIntoU32 _ n hw.1).1 ht
        rw [hw.2] at this
        omega
    rw [this]

theorem neg_gives (F : FixedWidth I valid) (hp : p < 2 ^ I.width) (r : MachineRange I p) :
    Gives valid r.neg r.abs.neg := fromRange_gives F hp _ _

end MachineRange
end

end Verif
