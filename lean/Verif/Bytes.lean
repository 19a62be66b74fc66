/-!
# Bytes, memory, fixed-width fields and variable-length integers

Models the readers of `/repo/include/trident/binarytables/binarytablereaders.h`
and the encoders used by the table inserters.  The kognac `Utils::encode_*`
functions are not part of /repo; they are modelled here as the usual big-endian
writers (trusted base, see DESIGN.md).
-/
namespace Trident

/-- Memory: every address holds a byte.  Reads outside of a table return whatever
byte the memory holds there; theorems quantify over all memories, so nothing can
be concluded from such reads. -/
abbrev Mem := Nat → UInt8

/-- `bs` is stored in memory `m` from address `a` on. -/
def Placed (m : Mem) (a : Nat) (bs : List UInt8) : Prop :=
  ∀ i (h : i < bs.length), m (a + i) = bs[i]

/-- Value of a byte read as unsigned (`buffer[i] & 0xFF`). -/
def ub (b : UInt8) : Int := (b.toNat : Int)

/-- Value of a byte read as (signed) `char` without masking. -/
def sb (b : UInt8) : Int := if b.toNat < 128 then (b.toNat : Int) else (b.toNat : Int) - 256

/-! ## Encoders -/

/-- Big-endian encoding of the low `w` bytes of `n`.
Models `Utils::encode_short/encode_int/encode_long/encode_longNBytes` (kognac),
called from /repo/src/trident/files/filedescriptor.cpp:143-182. -/
def encBE : Nat → Nat → List UInt8
  | 0, _ => []
  | w + 1, n => UInt8.ofNat (n / 256 ^ w) :: encBE w n

/-- The field widths known to the tables. -/
inductive Width | b1 | b2 | b4 | b5 | b8
  deriving DecidableEq, Repr

/-- binarytablereaders.h:30,41,52,69,86 (`size()`). -/
def Width.size : Width → Nat
  | .b1 => 1 | .b2 => 2 | .b4 => 4 | .b5 => 5 | .b8 => 8

/-- The writer of a field: newrowtableinserter.cpp:37-72
(`writeByte/Short/Int/LongInt/Long`). -/
def Width.enc (w : Width) (n : Nat) : List UInt8 := encBE w.size n

/-! ## Readers -/

/-- binarytablereaders.h:28-37 `ByteReader::read`. -/
def rdByte (m : Mem) (a : Nat) : Int := ub (m a)

/-- binarytablereaders.h:39-48 `ShortReader::read`. -/
def rdShort (m : Mem) (a : Nat) : Int := ub (m a) * 2 ^ 8 + ub (m (a + 1))

/-- binarytablereaders.h:50-65 `IntReader::read`. -/
def rdInt (m : Mem) (a : Nat) : Int :=
  ub (m a) * 2 ^ 24 + ub (m (a + 1)) * 2 ^ 16 + ub (m (a + 2)) * 2 ^ 8 + ub (m (a + 3))

/-- binarytablereaders.h:67-82 `LongIntReader::read`.  The first byte is not masked:
`(int64_t)(buffer[0]) << 32` sign-extends it. The result is stored in an `int64_t`. -/
def rdLongInt (m : Mem) (a : Nat) : Int :=
  sb (m a) * 2 ^ 32 + ub (m (a + 1)) * 2 ^ 24 + ub (m (a + 2)) * 2 ^ 16
    + ub (m (a + 3)) * 2 ^ 8 + ub (m (a + 4))

/-- binarytablereaders.h:84-102 `LongReader::read`; the result is stored in an
`int64_t`, hence the signed first byte. -/
def rdLong (m : Mem) (a : Nat) : Int :=
  sb (m a) * 2 ^ 56 + ub (m (a + 1)) * 2 ^ 48 + ub (m (a + 2)) * 2 ^ 40
    + ub (m (a + 3)) * 2 ^ 32 + ub (m (a + 4)) * 2 ^ 24 + ub (m (a + 5)) * 2 ^ 16
    + ub (m (a + 6)) * 2 ^ 8 + ub (m (a + 7))

/-- The reader of a field of the given width. -/
def Width.read : Width → Mem → Nat → Int
  | .b1 => rdByte | .b2 => rdShort | .b4 => rdInt | .b5 => rdLongInt | .b8 => rdLong

/-- The numbers a field of `w` bytes can hold. -/
def Width.cap (w : Width) : Nat := 256 ^ w.size

/-- The numbers a field of `w` bytes returns correctly (sign bit of the unmasked
first byte clear for the 5- and 8-byte fields). -/
def Width.safe : Width → Nat
  | .b1 => 2 ^ 8 | .b2 => 2 ^ 16 | .b4 => 2 ^ 32 | .b5 => 2 ^ 39 | .b8 => 2 ^ 63

/-! ## Variable-length integers (kognac `encode_vlong2`/`encode_vint2`) -/

/-- 7 bits per byte, low bits first, high bit set on all bytes but the last.
Models kognac `Utils::encode_vlong2` / `encode_vint2` (trusted base). -/
def encV (n : Nat) : List UInt8 :=
  if n < 128 then [UInt8.ofNat n] else UInt8.ofNat (128 + n % 128) :: encV (n / 128)
  termination_by n
  decreasing_by omega

/-- Decoder over a byte list: value and remaining bytes; `none` if the list ends
inside the number.  Models kognac `Utils::decode_vlong2` / `decode_vint2`. -/
def decV : List UInt8 → Option (Nat × List UInt8)
  | [] => none
  | b :: bs =>
    if b.toNat < 128 then some (b.toNat, bs)
    else match decV bs with
      | some (v, r) => some (b.toNat - 128 + 128 * v, r)
      | none => none

/-- The same decoder reading from memory at an address: value and address after it.
`fuel` bounds the number of bytes read (the C++ loop stops at a byte < 128). -/
def decVMem (m : Mem) : Nat → Nat → Nat × Nat
  | 0, a => (0, a)
  | fuel + 1, a =>
    if (m a).toNat < 128 then ((m a).toNat, a + 1)
    else
      let r := decVMem m fuel (a + 1)
      ((m a).toNat - 128 + 128 * r.1, r.2)

/-! ## Lemmas -/

theorem placed_append {m a xs ys} :
    Placed m a (xs ++ ys) ↔ Placed m a xs ∧ Placed m (a + xs.length) ys := by
  constructor
  · intro h
    refine ⟨fun i hi => ?_, fun i hi => ?_⟩
    · rw [h i (by simp; omega), List.getElem_append_left hi]
    · have := h (xs.length + i) (by simp; omega)
      rw [List.getElem_append_right (by omega)] at this
      simpa [Nat.add_assoc] using this
  · rintro ⟨h1, h2⟩ i hi
    by_cases hx : i < xs.length
    · rw [h1 i hx, List.getElem_append_left hx]
    · have := h2 (i - xs.length) (by simp at hi; omega)
      rw [List.getElem_append_right (by omega)]
      rw [← this]; congr 1; omega

theorem placed_cons {m a b bs} :
    Placed m a (b :: bs) ↔ m a = b ∧ Placed m (a + 1) bs := by
  have := @placed_append m a [b] bs
  simp only [List.singleton_append, List.length_singleton] at this
  rw [this]
  constructor
  · rintro ⟨h, h2⟩; exact ⟨by simpa using h 0 (by simp), h2⟩
  · rintro ⟨h, h2⟩
    refine ⟨fun i hi => ?_, h2⟩
    have : i = 0 := by simpa using hi
    subst this; simpa using h

theorem placed_nil {m a} : Placed m a [] := by intro i h; simp at h

/-- There is a memory in which a given byte string is stored at a given address. -/
theorem exists_placed (a : Nat) (bs : List UInt8) : ∃ m, Placed m a bs := by
  refine ⟨fun x => bs.getD (x - a) 0, fun i h => ?_⟩
  simp [List.getD, h]

@[simp] theorem encBE_length (w n : Nat) : (encBE w n).length = w := by
  induction w with
  | zero => rfl
  | succ w ih => simp [encBE, ih]

@[simp] theorem Width.enc_length (w : Width) (n : Nat) : (w.enc n).length = w.size := by
  simp [Width.enc]

theorem ub_ofNat (n : Nat) : ub (UInt8.ofNat n) = ((n % 256 : Nat) : Int) := by
  simp [ub]

theorem sb_ofNat (n : Nat) (h : n % 256 < 128) : sb (UInt8.ofNat n) = ((n % 256 : Nat) : Int) := by
  simp [sb]; omega

theorem Width.read_enc (w : Width) (m : Mem) (a n : Nat) (hn : n < w.safe)
    (h : Placed m a (w.enc n)) : w.read m a = n := by
  cases w <;>
    simp only [Width.enc, Width.size, encBE, placed_cons, Width.safe] at h hn <;>
    simp only [Width.read, rdByte, rdShort, rdInt, rdLongInt, rdLong]
  · rw [h.1, ub_ofNat]; omega
  · rw [h.1, h.2.1, ub_ofNat, ub_ofNat]; omega
  · rw [h.1, h.2.1, h.2.2.1, h.2.2.2.1]; simp only [ub_ofNat]; omega
  · simp only [Nat.add_assoc, Nat.reduceAdd] at h
    rw [h.1, h.2.1, h.2.2.1, h.2.2.2.1, h.2.2.2.2.1, sb_ofNat _ (by omega)]; simp only [ub_ofNat]; omega
  · simp only [Nat.add_assoc, Nat.reduceAdd] at h
    rw [h.1, h.2.1, h.2.2.1, h.2.2.2.1, h.2.2.2.2.1, h.2.2.2.2.2.1, h.2.2.2.2.2.2.1, h.2.2.2.2.2.2.2.1,
      sb_ofNat _ (by omega)]; simp only [ub_ofNat]; omega

theorem Width.safe_le_cap (w : Width) : w.safe ≤ w.cap := by cases w <;> decide

theorem Width.size_pos (w : Width) : 0 < w.size := by cases w <;> decide

theorem decV_encV (n : Nat) (r : List UInt8) : decV (encV n ++ r) = some (n, r) := by
  fun_induction encV n with
  | case1 n h =>
    have : (UInt8.ofNat n).toNat = n := by simp; omega
    simp only [List.cons_append, List.nil_append, decV, this, if_pos h]
  | case2 n h ih =>
    simp only [List.cons_append, decV, ih]
    have : (UInt8.ofNat (128 + n % 128)).toNat = 128 + n % 128 := by simp; omega
    rw [this, if_neg (by omega)]; simp; omega

theorem decVMem_encV (m : Mem) (a n : Nat) (h : Placed m a (encV n)) (fuel : Nat)
    (hf : (encV n).length ≤ fuel) : decVMem m fuel a = (n, a + (encV n).length) := by
  fun_induction encV n generalizing a fuel with
  | case1 n hn =>
    obtain ⟨f, rfl⟩ : ∃ f, fuel = f + 1 := ⟨fuel - 1, by simp at hf; omega⟩
    rw [placed_cons] at h
    simp only [decVMem, h.1]
    have : (UInt8.ofNat n).toNat = n := by simp; omega
    simp [this, hn]
  | case2 n hn ih =>
    simp only [List.length_cons] at hf
    obtain ⟨f, rfl⟩ : ∃ f, fuel = f + 1 := ⟨fuel - 1, by omega⟩
    rw [placed_cons] at h
    simp only [decVMem, h.1]
    have : (UInt8.ofNat (128 + n % 128)).toNat = 128 + n % 128 := by simp; omega
    rw [this, if_neg (by omega), ih (a + 1) h.2 f (by omega)]
    simp only [List.length_cons]
    ext <;> simp <;> omega

theorem encV_length_pos (n : Nat) : 0 < (encV n).length := by
  unfold encV; split <;> simp

end Trident
