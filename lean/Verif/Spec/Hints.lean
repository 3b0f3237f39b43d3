import Verif.Spec.K256Field
import Verif.Model.Hints

/-!
# What the memory holds when the guest asks for a hint
-/

namespace Verif

/-- The four bytes at an address are those of a 32-bit word, the least significant one first. -/
def HoldsWord (b : ℕ → ℕ) (i w : ℕ) : Prop :=
  w < 2 ^ 32 ∧ ∀ k < 4, b (i + k) = w / 256 ^ k % 256

/-- The pointer in register `rs1`: its four bytes are at `4 * rs1` among the registers. -/
def HintMemory.PointsTo (m : HintMemory) (rs1 p : ℕ) : Prop := HoldsWord m.reg (4 * rs1) p

/-- The limbs of a field element, least significant first. -/
def FieldElement10x26.limbs (a : FieldElement10x26) : List ℕ :=
  [a.l0, a.l1, a.l2, a.l3, a.l4, a.l5, a.l6, a.l7, a.l8, a.l9]

/-- The ten words at an address are the limbs of a field element. -/
def HintMemory.HoldsElem (m : HintMemory) (p : ℕ) (e : FieldElement10x26) : Prop :=
  ∀ k l, e.limbs[k]? = some l → HoldsWord m.mem (p + 4 * k) l

/-- The number that a list of bytes stands for, the most significant byte first. -/
def beValue : List ℕ → ℕ
  | [] => 0
  | b :: bs => b * 256 ^ bs.length + beValue bs

/-- The bytes of a word in the opposite order. -/
def byteSwap (w : ℕ) : ℕ :=
  w % 256 * 2 ^ 24 + w / 2 ^ 8 % 256 * 2 ^ 16 + w / 2 ^ 16 % 256 * 2 ^ 8 + w / 2 ^ 24 % 256

end Verif
