import Mathlib.Data.ZMod.Basic
import Verif.Model.K256Field

/-!
# What the limbs of a k256 field element mean
-/

namespace Verif

/-- The prime of secp256k1. -/
def k256P : ℕ := 2 ^ 256 - 2 ^ 32 - 977

namespace FieldElement10x26

/-- The number that the limbs stand for. -/
def val (a : FieldElement10x26) : ℕ :=
  a.l0 + a.l1 * 2 ^ 26 + a.l2 * 2 ^ 52 + a.l3 * 2 ^ 78 + a.l4 * 2 ^ 104 + a.l5 * 2 ^ 130
    + a.l6 * 2 ^ 156 + a.l7 * 2 ^ 182 + a.l8 * 2 ^ 208 + a.l9 * 2 ^ 234

/-- The element of the field that the limbs stand for. -/
def elem (a : FieldElement10x26) : ZMod k256P := (a.val : ZMod k256P)

/-- The magnitude of the limbs is at most `m`: the limbs are at most `2 m` times those of
`2^256 - 1`. -/
def Magnitude (m : ℕ) (a : FieldElement10x26) : Prop :=
  a.l0 ≤ 2 * m * 0x3FFFFFF ∧ a.l1 ≤ 2 * m * 0x3FFFFFF ∧ a.l2 ≤ 2 * m * 0x3FFFFFF ∧
  a.l3 ≤ 2 * m * 0x3FFFFFF ∧ a.l4 ≤ 2 * m * 0x3FFFFFF ∧ a.l5 ≤ 2 * m * 0x3FFFFFF ∧
  a.l6 ≤ 2 * m * 0x3FFFFFF ∧ a.l7 ≤ 2 * m * 0x3FFFFFF ∧ a.l8 ≤ 2 * m * 0x3FFFFFF ∧
  a.l9 ≤ 2 * m * 0x3FFFFF

/-- The limbs have 26 bits, and the last one 22. -/
def WeaklyNormalized (a : FieldElement10x26) : Prop :=
  a.l0 < 2 ^ 26 ∧ a.l1 < 2 ^ 26 ∧ a.l2 < 2 ^ 26 ∧ a.l3 < 2 ^ 26 ∧ a.l4 < 2 ^ 26 ∧
  a.l5 < 2 ^ 26 ∧ a.l6 < 2 ^ 26 ∧ a.l7 < 2 ^ 26 ∧ a.l8 < 2 ^ 26 ∧ a.l9 < 2 ^ 22

/-- The limbs are those of the smallest representative. -/
def Normalized (a : FieldElement10x26) : Prop := a.WeaklyNormalized ∧ a.val < k256P

instance (m : ℕ) (a : FieldElement10x26) : Decidable (a.Magnitude m) := by
  unfold Magnitude; infer_instance

instance (a : FieldElement10x26) : Decidable a.WeaklyNormalized := by
  unfold WeaklyNormalized; infer_instance

instance (a : FieldElement10x26) : Decidable a.Normalized := by
  unfold Normalized; infer_instance

end FieldElement10x26

end Verif
