import Verif.Model.BitFlags
import Verif.Spec.Bits
import Mathlib.Data.List.GetD

namespace Toron
open Toron.Spec

/-- Bit `i` of a byte string, most significant bit first. -/
def byteBit (bytes : List Byte) (i : Nat) : Bool := (bytes.getD (i / 8) 0).getLsbD (7 - i % 8)

theorem rstrip_getD (bs : List Byte) (i : Nat) : (rstripZeros bs).getD i 0 = bs.getD i 0 := by
  induction bs generalizing i with
  | nil => simp [rstripZeros]
  | cons b bs ih =>
    unfold rstripZeros
    split
    · rename_i h
      rw [h] at ih
      split
      · rename_i hb
        cases i with
        | zero => simp [hb]
        | succ i => simpa using ih i
      · cases i with
        | zero => simp
        | succ i => simpa using ih i
    · cases i with
      | zero => simp
      | succ i => simpa using ih i

theorem byteBit_rstrip (bs : List Byte) (i : Nat) : byteBit (rstripZeros bs) i = byteBit bs i := by
  simp only [byteBit, rstrip_getD]

/-- No trailing zero byte. -/
def Stripped (bs : List Byte) : Prop := rstripZeros bs = bs

theorem rstrip_idem (bs : List Byte) : Stripped (rstripZeros bs) := by
  unfold Stripped
  induction bs with
  | nil => rfl
  | cons b bs ih =>
    rw [rstripZeros]
    split
    · split
      · rfl
      · rename_i h; simp only [rstripZeros]; rw [if_neg h]
    · rename_i h
      rw [rstripZeros, ih]
      split
      · rename_i h'; exact absurd h' h
      · rfl

theorem stripped_iff_getLast (bs : List Byte) : Stripped bs ↔ bs.getLast? ≠ some 0 := by
  unfold Stripped
  induction bs with
  | nil => simp [rstripZeros]
  | cons b bs ih =>
    rw [rstripZeros]
    cases bs with
    | nil =>
      simp only [rstripZeros]
      split <;> simp_all
    | cons c cs =>
      have h1 : (b :: c :: cs).getLast? = (c :: cs).getLast? := by simp
      rw [h1, ← ih]
      split
      · rename_i h
        split <;> simp [h]
      · simp

theorem all_zero_stripped (bs : List Byte) (h : ∀ i, bs.getD i 0 = 0) : rstripZeros bs = [] := by
  induction bs with
  | nil => rfl
  | cons b bs ih =>
    rw [rstripZeros, ih (fun i => by simpa using h (i + 1))]
    have := h 0
    simp at this
    simp [this]

theorem stripped_ext (as bs : List Byte) (ha : Stripped as) (hb : Stripped bs)
    (h : ∀ i, as.getD i 0 = bs.getD i 0) : as = bs := by
  induction as generalizing bs with
  | nil =>
    unfold Stripped at hb
    rw [← hb]; exact (all_zero_stripped bs (fun i => by rw [← h]; simp)).symm
  | cons a as ih =>
    cases bs with
    | nil =>
      unfold Stripped at ha
      rw [← ha]; exact all_zero_stripped _ (fun i => by rw [h]; simp)
    | cons b bs =>
      have h0 : a = b := by simpa using h 0
      have hst : ∀ (x : Byte) (xs : List Byte), Stripped (x :: xs) → Stripped xs := by
        intro x xs hx
        rw [stripped_iff_getLast] at *
        cases xs with
        | nil => simp
        | cons y ys => simpa using hx
      rw [h0, ih bs (hst _ _ ha) (hst _ _ hb) (fun i => by simpa using h (i + 1))]

theorem byte_ext_bits (a b : Byte) (h : ∀ j, j < 8 → a.getLsbD (7 - j) = b.getLsbD (7 - j)) :
    a = b := by
  apply BitVec.eq_of_getLsbD_eq
  intro i hi
  have := h (7 - i) (by omega)
  have h7 : 7 - (7 - i) = i := by omega
  rwa [h7] at this

theorem getD_of_byteBit (as bs : List Byte) (h : ∀ i, byteBit as i = byteBit bs i) (k : Nat) :
    as.getD k 0 = bs.getD k 0 := by
  apply byte_ext_bits
  intro j hj
  have := h (8 * k + j)
  have h1 : (8 * k + j) / 8 = k := by omega
  have h2 : (8 * k + j) % 8 = j := by omega
  simpa [byteBit, h1, h2] using this

theorem packWord_bits (a b c d e f g h : Bool) :
    byteToBits (packWord [a, b, c, d, e, f, g, h]) = [a, b, c, d, e, f, g, h] := by
  revert a b c d e f g h; decide

theorem byteToBits_getLsbD (x : Byte) :
    byteToBits x = [x.getLsbD 7, x.getLsbD 6, x.getLsbD 5, x.getLsbD 4,
      x.getLsbD 3, x.getLsbD 2, x.getLsbD 1, x.getLsbD 0] := by
  revert x; decide

theorem byteToBits_length (x : Byte) : (byteToBits x).length = 8 := by simp [byteToBits]

theorem bitAt_cons8 (x : Byte) (rest : List Bool) (i : Nat) :
    bitAt (byteToBits x ++ rest) i =
      if i < 8 then x.getLsbD (7 - i) else bitAt rest (i - 8) := by
  rw [byteToBits_getLsbD]
  unfold bitAt
  split
  · rename_i h
    have : i = 0 ∨ i = 1 ∨ i = 2 ∨ i = 3 ∨ i = 4 ∨ i = 5 ∨ i = 6 ∨ i = 7 := by omega
    rcases this with rfl | rfl | rfl | rfl | rfl | rfl | rfl | rfl <;> simp
  · rename_i h
    rw [List.getD_append_right _ _ _ _ (by simp; omega)]
    simp

theorem byteBit_cons (x : Byte) (bs : List Byte) (i : Nat) :
    byteBit (x :: bs) i = if i < 8 then x.getLsbD (7 - i) else byteBit bs (i - 8) := by
  unfold byteBit
  split
  · rename_i h
    have h1 : i / 8 = 0 := by omega
    have h2 : i % 8 = i := by omega
    simp [h1, h2]
  · rename_i h
    have h1 : i / 8 = (i - 8) / 8 + 1 := by omega
    have h2 : i % 8 = (i - 8) % 8 := by omega
    simp [h1, h2]

theorem bitAt_bytesToBitstream (bs : List Byte) (i : Nat) :
    bitAt (bytesToBitstream bs) i = byteBit bs i := by
  induction bs generalizing i with
  | nil => simp [bytesToBitstream, bitAt, byteBit]
  | cons b bs ih =>
    have : bytesToBitstream (b :: bs) = byteToBits b ++ bytesToBitstream bs := by
      simp [bytesToBitstream]
    rw [this, bitAt_cons8, byteBit_cons, ih]

theorem bytesToBitstream_length (bs : List Byte) : (bytesToBitstream bs).length = bs.length * 8 := by
  induction bs with
  | nil => rfl
  | cons b bs ih =>
    have : bytesToBitstream (b :: bs) = byteToBits b ++ bytesToBitstream bs := by
      simp [bytesToBitstream]
    rw [this, List.length_append, ih, byteToBits_length]; simp; omega

theorem bitAt_append_false (l : List Bool) (n i : Nat) :
    bitAt (l ++ List.replicate n false) i = bitAt l i := by
  unfold bitAt
  by_cases h : i < l.length
  · rw [List.getD_append _ _ _ _ h]
  · rw [List.getD_append_right _ _ _ _ (by omega)]
    rw [List.getD_eq_default l _ (by omega)]
    by_cases h2 : i - l.length < n
    · simp [List.getD, h2]
    · simp [List.getD, h2]

theorem byteBit_single_pack (w : List Bool) (hw : w.length = 8) (i : Nat) :
    byteBit [packWord w] i = bitAt w i := by
  match w, hw with
  | [a, b, c, d, e, f, g, h], _ =>
    rw [← bitAt_bytesToBitstream]
    simp [bytesToBitstream, packWord_bits]

theorem byteBit_bitsToBytesRaw (bits : List Bool) (i : Nat) :
    byteBit (bitsToBytesRaw bits) i = bitAt bits i := by
  fun_induction bitsToBytesRaw bits generalizing i with
  | case1 a b c d e f g h rest ih =>
    rw [byteBit_cons, ih]
    have := bitAt_cons8 (packWord [a, b, c, d, e, f, g, h]) rest i
    rw [packWord_bits] at this
    simpa using this.symm
  | case2 => simp [byteBit, bitAt]
  | case3 short h1 h2 =>
    have hlen : short.length < 8 := by
      match short, h1, h2 with
      | [], _, _ => simp
      | [_], _, _ => simp
      | [_, _], _, _ => simp
      | [_, _, _], _, _ => simp
      | [_, _, _, _], _, _ => simp
      | [_, _, _, _, _], _, _ => simp
      | [_, _, _, _, _, _], _, _ => simp
      | [_, _, _, _, _, _, _], _, _ => simp
      | a :: b :: c :: d :: e :: f :: g :: h :: rest, h1, _ =>
        exact absurd rfl (h1 a b c d e f g h rest)
    rw [byteBit_single_pack _ (by simp; omega), bitAt_append_false]

theorem byteBit_zipOr (as bs : List Byte) (i : Nat) :
    byteBit (BitFlags.zipOr as bs) i = (byteBit as i || byteBit bs i) := by
  fun_induction BitFlags.zipOr as bs generalizing i with
  | case1 bs =>
    simp only [BitVec.zero_or, List.map_id']
    simp [byteBit]
  | case2 as h =>
    simp only [BitVec.or_zero, List.map_id']
    simp [byteBit]
  | case3 a as b bs ih =>
    simp only [byteBit_cons, ih]
    split <;> simp

theorem stripped_of_constructed (f : BitFlags) (h : f.Constructed) : Stripped f.bytes := by
  cases h with
  | bytes b => exact rstrip_idem _
  | bits b => exact rstrip_idem _

theorem bitAt_toBits_ofBits (bits : List Bool) (i : Nat) :
    bitAt (BitFlags.ofBits bits).toBits i = bitAt bits i := by
  simp [BitFlags.toBits, BitFlags.ofBits, bitAt_bytesToBitstream, bitstreamToBytes,
    byteBit_rstrip, byteBit_bitsToBytesRaw]

theorem constructed_ext (a b : BitFlags) (ha : a.Constructed) (hb : b.Constructed)
    (h : SameBits a.toBits b.toBits) : a = b := by
  have : a.bytes = b.bytes := by
    apply stripped_ext _ _ (stripped_of_constructed a ha) (stripped_of_constructed b hb)
    apply getD_of_byteBit
    intro i
    have := h i
    simpa [BitFlags.toBits, bitAt_bytesToBitstream] using this
  cases a; cases b; simp_all

theorem bitAt_or (a b : BitFlags) (i : Nat) :
    bitAt (a.or b).toBits i = (bitAt a.toBits i || bitAt b.toBits i) := by
  simp [BitFlags.toBits, BitFlags.or, BitFlags.ofBytes, bitAt_bytesToBitstream, byteBit_rstrip,
    byteBit_zipOr]

end Toron
