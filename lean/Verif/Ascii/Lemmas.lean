import Verif.Ascii.Model

namespace Abc.Ascii

/-- To prove something of every byte, check the 256 bytes. -/
theorem forall_byte {P : Byte → Prop} (h : ∀ n : Fin 256, P (UInt8.ofNat n)) : ∀ c, P c := by
  intro c
  have := h ⟨c.toNat, c.toNat_lt⟩
  simpa using this

/-- ASCII lower-casing as an independent specification. -/
def lower (c : Byte) : Byte := if 65 ≤ c.toNat ∧ c.toNat ≤ 90 then c + 32 else c

set_option maxRecDepth 10000 in
theorem toLower_eq_lower : ∀ c, toLower c = lower c := forall_byte (by decide)

set_option maxRecDepth 10000 in
theorem lower_zero : ∀ c, lower c = 0 ↔ c = 0 := forall_byte (by decide)

end Abc.Ascii
