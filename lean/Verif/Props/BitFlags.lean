/-
Property theorems about bit flags (C07, C08).
-/
import Verif.Lemmas.BitFlags
import Mathlib.Tactic.ByContra

namespace Toron.BitFlags
open Toron.Spec

/-- C07: decoding an encoded bit sequence gives back the sequence, up to trailing zeros. -/
theorem C07_decode_encode (bits : List Bool) : SameBits (ofBits bits).toBits bits :=
  bitAt_toBits_ofBits bits

/-- C07: encoding the decoded bits of any constructed object gives the object back. -/
theorem C07_encode_decode (f : BitFlags) (h : f.Constructed) : ofBits f.toBits = f :=
  constructed_ext _ _ (.bits _) h (C07_decode_encode _)

/-- C07: converting to bytes and back gives the object back. -/
theorem C07_bytes_roundtrip (f : BitFlags) (h : f.Constructed) : ofBytes f.bytes = f := by
  have := stripped_of_constructed f h
  cases f
  exact congrArg BitFlags.mk this

/-- C07: a byte string denotes the bits of its bytes, most significant first. -/
theorem C07_ofBytes_bits (b : List Byte) (i : Nat) :
    bitAt (ofBytes b).toBits i = (b.getD (i / 8) 0).getLsbD (7 - i % 8) := by
  simp only [toBits, ofBytes, bitAt_bytesToBitstream, byteBit_rstrip]
  rfl

/-- C07: two constructed objects compare equal iff they hold the same bits. -/
theorem C07_eq_iff_same_bits (a b : BitFlags) (ha : a.Constructed) (hb : b.Constructed) :
    a.eq b = true ↔ SameBits a.toBits b.toBits := by
  constructor
  · intro h
    have : a.bytes = b.bytes := by simpa [eq] using h
    intro i; simp [toBits, this]
  · intro h; rw [constructed_ext a b ha hb h]; simp [eq]

/-- C07: comparison with a plain bit sequence is by truth value up to trailing zeros. -/
theorem C07_eqBits_iff_same_bits (a : BitFlags) (ha : a.Constructed) (bits : List Bool) :
    a.eqBits bits = true ↔ SameBits a.toBits bits := by
  have h := C07_eq_iff_same_bits a (ofBits bits) ha (.bits bits)
  constructor
  · intro he i
    rw [← bitAt_toBits_ofBits bits i]; exact h.1 he i
  · intro hs
    apply h.2
    intro i; rw [bitAt_toBits_ofBits]; exact hs i

/-- C07: no constructed object ends in a zero byte. -/
theorem C07_no_trailing_zero_byte (f : BitFlags) (h : f.Constructed) :
    f.bytes.getLast? ≠ some 0 :=
  (stripped_iff_getLast _).1 (stripped_of_constructed f h)

/-- C07: the length is a multiple of eight and equals the number of bits iterated. -/
theorem C07_len (f : BitFlags) : f.toBits.length = f.len ∧ f.len % 8 = 0 := by
  constructor
  · exact bytesToBitstream_length _
  · simp [len]

/-- C07: the length is the least multiple of eight that holds all bits: there is a 1 in the last
eight positions unless the object is empty, and none after. -/
theorem C07_len_minimal (f : BitFlags) (h : f.Constructed) (hne : 0 < f.len) :
    (∃ i, f.len - 8 ≤ i ∧ i < f.len ∧ bitAt f.toBits i = true) ∧
      ∀ i, f.len ≤ i → bitAt f.toBits i = false := by
  constructor
  · have hlast := C07_no_trailing_zero_byte f h
    have hpos : 0 < f.bytes.length := by simp [len] at hne; exact hne
    by_contra hcon
    apply hlast
    rw [List.getLast?_eq_getElem?, List.getElem?_eq_getElem (by omega)]
    congr 1
    apply byte_ext_bits
    intro j hj
    simp only [BitVec.ofNat_eq_ofNat, BitVec.getLsbD_zero]
    have hi : bitAt f.toBits (f.len - 8 + j) = false := by
      cases hb : bitAt f.toBits (f.len - 8 + j) with
      | false => rfl
      | true => exact absurd ⟨_, by omega, by simp [len] at *; omega, hb⟩ hcon
    simp only [toBits, bitAt_bytesToBitstream, byteBit, len] at hi
    have h1 : (f.bytes.length * 8 - 8 + j) / 8 = f.bytes.length - 1 := by omega
    have h2 : (f.bytes.length * 8 - 8 + j) % 8 = j := by omega
    rw [h1, h2] at hi
    rw [List.getD_eq_getElem _ _ (by omega)] at hi
    exact hi
  · intro i hi
    unfold bitAt
    apply List.getD_eq_default
    rw [(C07_len f).1]; exact hi

/-- C07: indexing agrees with the sequence of bits; a negative index counts from the end; an index
outside the range is rejected. -/
theorem C07_getItem (f : BitFlags) (i : Int) :
    (0 ≤ i ∧ i < f.len → f.getItem i = .ok (bitAt f.toBits i.toNat)) ∧
    (i < 0 ∧ -(f.len : Int) ≤ i → f.getItem i = .ok (bitAt f.toBits (f.len + i).toNat)) ∧
    (i < -(f.len : Int) ∨ (f.len : Int) ≤ i → ∃ t, f.getItem i = .error (.indexError t)) := by
  have key : ∀ n : Nat, n < f.len →
      (match f.bytes[n / 8]? with
        | none => .error (.indexError "bytes index out of range")
        | some byte => .ok (((byte >>> (7 - n % 8)) &&& 1#8) == 1#8) : Except Err Bool)
      = .ok (bitAt f.toBits n) := by
    intro n hn
    have hlt : n / 8 < f.bytes.length := by simp [len] at hn; omega
    rw [List.getElem?_eq_getElem hlt]
    simp only [toBits, bitAt_bytesToBitstream, byteBit, List.getD_eq_getElem _ _ hlt]
    generalize f.bytes[n / 8] = x
    have h8 : n % 8 < 8 := Nat.mod_lt _ (by omega)
    generalize n % 8 = r at h8
    congr 1
    have : r = 0 ∨ r = 1 ∨ r = 2 ∨ r = 3 ∨ r = 4 ∨ r = 5 ∨ r = 6 ∨ r = 7 := by omega
    revert x
    rcases this with rfl | rfl | rfl | rfl | rfl | rfl | rfl | rfl <;> decide
  refine ⟨?_, ?_, ?_⟩
  · rintro ⟨h0, h1⟩
    unfold getItem
    have hneg : ¬ i < 0 := by omega
    simp only [hneg, if_false, h0, h1, and_self, not_true_eq_false]
    exact key i.toNat (by omega)
  · rintro ⟨h0, h1⟩
    unfold getItem
    have hneg : 0 ≤ (f.len : Int) + i ∧ (f.len : Int) + i < f.len := by omega
    simp only [h0, if_true, hneg, and_self, not_true_eq_false, if_false]
    exact key _ (by omega)
  · intro h
    unfold getItem
    by_cases h0 : i < 0
    · have : ¬ (0 ≤ (f.len : Int) + i ∧ (f.len : Int) + i < f.len) := by omega
      simp only [h0, if_true, this, not_false_eq_true]
      exact ⟨_, rfl⟩
    · have : ¬ (0 ≤ i ∧ i < f.len) := by omega
      simp only [h0, if_false, this, not_false_eq_true, if_true]
      exact ⟨_, rfl⟩

/-- C07: a slice holds the bits of the positions it covers. -/
theorem C07_getSlice (f : BitFlags) (start stop i : Nat) :
    bitAt (f.getSlice start stop).toBits i =
      (decide (start + i < stop) && bitAt f.toBits (start + i)) := by
  unfold getSlice
  rw [bitAt_toBits_ofBits]
  unfold bitAt
  simp only [List.getD_eq_getElem?_getD, List.getElem?_drop, List.getElem?_take]
  split
  · simp_all
  · rename_i h; simp [show ¬ start + i < stop by omega]

-- hypotheses are met by a non-trivial object spanning two bytes
example : Constructed (ofBits [true, true, false, true, false, false, false, false, true]) := .bits _
example : (ofBits [true, true, false, true, false, false, false, false, true]).bytes
    = [0xd0#8, 0x80#8] := by decide
example : (ofBits [true, true, false, true, false, false, false, false, false, false]).bytes
    = [0xd0#8] := by decide

/-- C08: the union of two objects holds exactly the bits held by either. -/
theorem C08_or_is_union (a b : BitFlags) (i : Nat) :
    bitAt (a.or b).toBits i = (bitAt a.toBits i || bitAt b.toBits i) :=
  bitAt_or a b i

/-- C08: `a | b == a` iff every bit of `b` is a bit of `a`. -/
theorem C08_or_eq_left_iff_subset (a b : BitFlags) (ha : a.Constructed) :
    (a.or b).eq a = true ↔ ∀ i, bitAt b.toBits i = true → bitAt a.toBits i = true := by
  rw [C07_eq_iff_same_bits (a.or b) a (.bytes _) ha]
  constructor
  · intro h i hi
    have := h i
    rw [bitAt_or, hi] at this
    simpa using this.symm
  · intro h i
    rw [bitAt_or]
    cases hb : bitAt b.toBits i with
    | false => simp
    | true => simp [h i hb]

/-- C08: union is commutative, associative and idempotent. -/
theorem C08_or_comm (a b : BitFlags) : a.or b = b.or a :=
  constructed_ext _ _ (.bytes _) (.bytes _) (fun i => by simp [bitAt_or, Bool.or_comm])

theorem C08_or_assoc (a b c : BitFlags) : (a.or b).or c = a.or (b.or c) :=
  constructed_ext _ _ (.bytes _) (.bytes _) (fun i => by simp [bitAt_or, Bool.or_assoc])

theorem C08_or_self (a : BitFlags) (ha : a.Constructed) : a.or a = a :=
  constructed_ext _ _ (.bytes _) ha (fun i => by simp [bitAt_or])

-- different byte counts
example : ((ofBits [true]).or (ofBits [false, false, false, false, false, false, false, false, true])).bytes
    = [0x80#8, 0x80#8] := by decide

end Toron.BitFlags
