import Verif.Bytes
/-!
# C01, C02: fixed-width fields and variable-length integers
-/
namespace Trident

/-- C01 (partial): a number that fits the field is read back, wherever it is stored.
Missing: 5-byte fields with values in `[2^39, 2^40)` and 8-byte fields with values
in `[2^63, 2^64)`, see `C01_five_byte_field_violated`. -/
theorem C01_field_roundtrip_partial (w : Width) (n : Nat) (m : Mem) (a : Nat)
    (hn : n < 256 ^ w.size) (h5 : w = .b5 → n < 2 ^ 39) (h8 : w = .b8 → n < 2 ^ 63)
    (h : Placed m a (w.enc n)) : w.read m a = n := by
  refine w.read_enc m a n ?_ h
  cases w <;> simp_all [Width.size, Width.safe]

/-- C01 is false for the 5-byte fields: every value `>= 2^39` that fits into the five
bytes is read back as a negative number. -/
theorem C01_five_byte_field_violated (n : Nat) (h1 : 2 ^ 39 ≤ n) (h2 : n < 256 ^ 5) (m : Mem)
    (a : Nat) (h : Placed m a (Width.b5.enc n)) : Width.b5.read m a < 0 := by
  simp only [Width.enc, Width.size] at h
  have h0 := h 0 (by simp [encBE])
  have hb0 := (m a).toNat_lt
  have hb1 := (m (a + 1)).toNat_lt
  have hb2 := (m (a + 2)).toNat_lt
  have hb3 := (m (a + 3)).toNat_lt
  have hb4 := (m (a + 4)).toNat_lt
  simp only [encBE, List.getElem_cons_zero, Nat.add_zero] at h0
  have : (m a).toNat = n / 2 ^ 32 := by
    rw [h0]; simp only [UInt8.toNat_ofNat']; omega
  simp only [Width.read, rdLongInt, sb, ub, this]
  have : ¬ n / 2 ^ 32 < 128 := by omega
  rw [if_neg this]
  omega

/-- The hypotheses are satisfiable: 300 in two bytes, stored at address 7. -/
example : ∃ m : Mem, Placed m 7 (Width.b2.enc 300) ∧ Width.b2.read m 7 = 300 := by
  obtain ⟨m, hm⟩ := exists_placed 7 (Width.b2.enc 300)
  exact ⟨m, hm, C01_field_roundtrip_partial .b2 300 m 7 (by decide) (by decide) (by decide) hm⟩

/-- C02: decoding returns the number and the untouched suffix. -/
theorem C02_varint_roundtrip (n : Nat) (rest : List UInt8) :
    decV (encV n ++ rest) = some (n, rest) := decV_encV n rest

/-- C02 on memory: decoding at the address of the number returns it and the address
just after it. -/
theorem C02_varint_roundtrip_mem (n : Nat) (m : Mem) (a fuel : Nat) (h : Placed m a (encV n))
    (hf : (encV n).length ≤ fuel) : decVMem m fuel a = (n, a + (encV n).length) :=
  decVMem_encV m a n h fuel hf

example : decV (encV 300 ++ [7]) = some (300, [7]) := C02_varint_roundtrip 300 [7]
example : (encV 300).length = 2 := by simp [encV]

end Trident
