/-
C46: index codes round-trip, and wrong codes are detected.
-/
import Verif.Lemmas.IndexCode

namespace Toron.IndexCode

open Toron.Selectors (PyStr)

theorem packI64_ok {i : Int} (hi : -2 ^ 63 ≤ i ∧ i < 2 ^ 63) :
    packI64 i = .ok (toBytes8 (i % 2 ^ 64).toNat) := by
  unfold packI64
  rw [if_pos hi]

theorem checksum_ok {i : Int} (hi : -2 ^ 63 ≤ i ∧ i < 2 ^ 63) (uid : List Byte) :
    checksum i uid = .ok (crc32 (toBytes8 (i % 2 ^ 64).toNat ++ uid)) := by
  unfold checksum
  rw [packI64_ok hi]
  rfl

theorem toCode_ok {i : Int} {uid : List Byte} {c : PyStr} (h : toCode i uid = .ok c) :
    (-2 ^ 63 ≤ i ∧ i < 2 ^ 63) ∧ c = decInt i ++ 'X' :: hex8 (crc32 (toBytes8 (i % 2 ^ 64).toNat ++ uid)).toNat := by
  unfold toCode at h
  by_cases hi : -2 ^ 63 ≤ i ∧ i < 2 ^ 63
  · rw [checksum_ok hi] at h
    exact ⟨hi, (Except.ok.inj h).symm⟩
  · unfold checksum packI64 at h
    rw [if_neg hi] at h
    cases h

theorem toId_eq {a b : PyStr} {i : Int} {n : Int} (hX : 'X' ∉ a) (ha : parseInt 10 a = some i)
    (hb : parseInt 16 b = some n) (hi : -2 ^ 63 ≤ i ∧ i < 2 ^ 63) (uid : List Byte) :
    toId (a ++ 'X' :: b) uid =
      if n ≠ ((crc32 (toBytes8 (i % 2 ^ 64).toNat ++ uid)).toNat : Int) then
        .error (.valueError "checksum mismatch for index code") else .ok i := by
  unfold toId
  rw [partitionX_eq a b hX]
  simp only [ha, hb, checksum_ok hi]
  rfl

/-- Every id that fits in 64 bits has a code, and the code decodes to that id. -/
theorem C46_round_trip (i : Int) (uid : List Byte) (hi : -2 ^ 63 ≤ i ∧ i < 2 ^ 63) :
    ∃ c, toCode i uid = .ok c ∧ toId c uid = .ok i ∧ isCode c uid = .ok true := by
  have hc : toCode i uid =
      .ok (decInt i ++ 'X' :: hex8 (crc32 (toBytes8 (i % 2 ^ 64).toNat ++ uid)).toNat) := by
    unfold toCode
    rw [checksum_ok hi]
    rfl
  have hid := toId_eq (X_notMem_decInt i) (parseInt_decInt i hi)
    (parseInt_hex8 (crc32 (toBytes8 (i % 2 ^ 64).toNat ++ uid)).toNat (BitVec.isLt _)) hi uid
  rw [if_neg (by simp)] at hid
  refine ⟨_, hc, hid, ?_⟩
  unfold isCode
  rw [hid]

/-- A text is accepted exactly if it is a decimal number, an `X` and a hexadecimal number, and the second
number is the checksum of the first one. -/
theorem C46_accepts_iff (c : PyStr) (uid : List Byte) (i : Int) :
    toId c uid = .ok i ↔ ∃ a b, c = a ++ 'X' :: b ∧ 'X' ∉ a ∧ parseInt 10 a = some i ∧
      ∃ k, checksum i uid = .ok k ∧ parseInt 16 b = some (k.toNat : Int) := by
  constructor
  · intro h
    obtain ⟨hX, hsplit⟩ := partitionX_spec c
    unfold toId at h
    rcases ha : parseInt 10 (partitionX c).1 with _ | j <;> simp only [ha] at h
    · cases h
    rcases hb : parseInt 16 (partitionX c).2 with _ | n <;> simp only [hb] at h
    · cases h
    rcases hk : checksum j uid with e | k
    · rw [hk] at h; cases h
    simp only [hk, bind, Except.bind] at h
    by_cases hn : n ≠ (k.toNat : Int)
    · rw [if_pos hn] at h; cases h
    rw [if_neg hn] at h
    cases h
    rcases hsplit with hs | ⟨_, hnil⟩
    · exact ⟨_, _, hs, hX, ha, k, hk, by rw [hb, not_not.1 hn]⟩
    · rw [hnil] at hb
      cases hb
  · rintro ⟨a, b, rfl, hX, ha, k, hk, hb⟩
    unfold toId
    rw [partitionX_eq a b hX]
    simp only [ha, hb, hk, bind, Except.bind, ne_eq, not_true_eq_false, if_false]

theorem crc_same_block {x y : Nat} {uid : List Byte} (hq : x / 2 ^ 32 = y / 2 ^ 32)
    (h : crc32 (toBytes8 x ++ uid) = crc32 (toBytes8 y ++ uid)) : toBytes8 x = toBytes8 y := by
  have htake : (toBytes8 x).take 4 = (toBytes8 y).take 4 := by
    have : ∀ k, 4 ≤ k → x / 256 ^ k = y / 256 ^ k := by
      intro k hk
      have : 256 ^ k = 2 ^ 32 * 256 ^ (k - 4) := by
        obtain ⟨m, rfl⟩ := Nat.exists_eq_add_of_le hk
        rw [Nat.add_sub_cancel_left, Nat.pow_add]
        norm_num
      rw [this, ← Nat.div_div_eq_div_mul, ← Nat.div_div_eq_div_mul, hq]
    simp only [toBytes8, List.map_cons, List.map_nil, List.take_succ_cons, List.take_zero,
      this 7 (by omega), this 6 (by omega), this 5 (by omega), this 4 (by omega)]
  rw [← List.take_append_drop 4 (toBytes8 x), ← List.take_append_drop 4 (toBytes8 y), htake] at h
  have hw := crc32_burst _ _ _ _ (by simp [toBytes8_length]) (by simp [toBytes8_length]) h
  rw [← List.take_append_drop 4 (toBytes8 x), ← List.take_append_drop 4 (toBytes8 y), htake, hw]

/-- If the number in front of a code is changed to another id of the same block of 2^32 ids, the code is
refused. (All ids from 0 to 2^32 - 1 are one block.) -/
theorem C46_changed_id_partial (i j : Int) (uid : List Byte) (chk : PyStr)
    (h : toCode i uid = .ok (decInt i ++ 'X' :: chk)) (hj : -2 ^ 63 ≤ j ∧ j < 2 ^ 63) (hij : i ≠ j)
    (hblock : i / 2 ^ 32 = j / 2 ^ 32) :
    (∃ t, toId (decInt j ++ 'X' :: chk) uid = .error (.valueError t)) ∧
      isCode (decInt j ++ 'X' :: chk) uid = .ok false := by
  obtain ⟨hi, he⟩ := toCode_ok h
  have hchk : chk = hex8 (crc32 (toBytes8 (i % 2 ^ 64).toNat ++ uid)).toNat :=
    (List.cons.inj (List.append_cancel_left he)).2
  have hid := toId_eq (X_notMem_decInt j) (parseInt_decInt j hj)
    (parseInt_hex8 (crc32 (toBytes8 (i % 2 ^ 64).toNat ++ uid)).toNat (BitVec.isLt _)) hj uid
  rw [← hchk] at hid
  have hne : ((crc32 (toBytes8 (i % 2 ^ 64).toNat ++ uid)).toNat : Int) ≠
      ((crc32 (toBytes8 (j % 2 ^ 64).toNat ++ uid)).toNat : Int) := by
    intro e
    have e' : crc32 (toBytes8 (i % 2 ^ 64).toNat ++ uid) = crc32 (toBytes8 (j % 2 ^ 64).toNat ++ uid) :=
      BitVec.eq_of_toNat_eq (by exact_mod_cast e)
    have := crc_same_block (by omega) e'
    have := toBytes8_inj _ _ (by omega) (by omega) this
    omega
  rw [if_pos hne] at hid
  refine ⟨⟨_, hid⟩, ?_⟩
  unfold isCode
  rw [hid]

/-- A code is refused by a dataset whose unique id differs only within four consecutive bytes. -/
theorem C46_foreign_partial (i : Int) (a w w' b : List Byte) (c : PyStr)
    (h : toCode i (a ++ w ++ b) = .ok c) (hne : w ≠ w') (hl : w.length = w'.length) (h4 : w.length ≤ 4) :
    (∃ t, toId c (a ++ w' ++ b) = .error (.valueError t)) ∧ isCode c (a ++ w' ++ b) = .ok false := by
  obtain ⟨hi, rfl⟩ := toCode_ok h
  have hid := toId_eq (X_notMem_decInt i) (parseInt_decInt i hi)
    (parseInt_hex8 (crc32 (toBytes8 (i % 2 ^ 64).toNat ++ (a ++ w ++ b))).toNat (BitVec.isLt _)) hi
    (a ++ w' ++ b)
  rw [if_pos] at hid
  · refine ⟨⟨_, hid⟩, ?_⟩
    unfold isCode
    rw [hid]
  · intro e
    have e' : crc32 (toBytes8 (i % 2 ^ 64).toNat ++ (a ++ w ++ b)) =
        crc32 (toBytes8 (i % 2 ^ 64).toNat ++ (a ++ w' ++ b)) :=
      BitVec.eq_of_toNat_eq (by exact_mod_cast e)
    simp only [← List.append_assoc] at e'
    exact hne (crc32_burst _ _ _ _ hl h4 e')

/-- Whether a dataset accepts the codes of another one does not depend on the code: it accepts all of them if the
checksums of the unique ids agree, and none otherwise. -/
theorem C46_foreign_iff (i : Int) (u u' : List Byte) (c : PyStr) (hl : u.length = u'.length) (h : toCode i u = .ok c) :
    (crc32 u = crc32 u' → toId c u' = .ok i) ∧
    (crc32 u ≠ crc32 u' → (∃ t, toId c u' = .error (.valueError t)) ∧ isCode c u' = .ok false) := by
  obtain ⟨hi, rfl⟩ := toCode_ok h
  have hid := toId_eq (X_notMem_decInt i) (parseInt_decInt i hi)
    (parseInt_hex8 (crc32 (toBytes8 (i % 2 ^ 64).toNat ++ u)).toNat (BitVec.isLt _)) hi u'
  constructor
  · intro he
    rw [hid, if_neg]
    rw [(crc32_prefix hl _).2 he]
    simp
  · intro hne
    rw [if_pos] at hid
    · refine ⟨⟨_, hid⟩, ?_⟩
      unfold isCode
      rw [hid]
    · intro e
      exact hne ((crc32_prefix hl _).1 (BitVec.eq_of_toNat_eq (by exact_mod_cast e)))

-- both cases occur
example : crc32 [1, 2, 3] ≠ crc32 [4, 5, 6] ∧ crc32 (List.replicate 16 0) =
    crc32 ([0x01#8, 0x96#8, 0x30#8, 0x07#8, 0x77#8] ++ List.replicate 11 0) := by decide +kernel

/-! ### Where the full statement fails -/

/-- Two ids of different blocks can share their checksum: the code of the id 0 with the id replaced by
6814697335 is accepted. -/
theorem C46_violated_changed_id : ∃ (i j : Int) (uid : List Byte) (chk : PyStr), uid.length = 16 ∧ i ≠ j ∧
    toCode i uid = .ok (decInt i ++ 'X' :: chk) ∧ toId (decInt j ++ 'X' :: chk) uid = .ok j := by
  have hcrc : crc32 (toBytes8 ((0 : Int) % 2 ^ 64).toNat ++ List.replicate 16 0) =
      crc32 (toBytes8 ((0x196300777 : Int) % 2 ^ 64).toNat ++ List.replicate 16 0) := by decide +kernel
  refine ⟨0, 0x196300777, List.replicate 16 0,
    hex8 (crc32 (toBytes8 ((0 : Int) % 2 ^ 64).toNat ++ List.replicate 16 0)).toNat, by simp, by decide, ?_, ?_⟩
  · unfold toCode
    rw [checksum_ok (by decide)]
    rfl
  · rw [toId_eq (X_notMem_decInt _) (parseInt_decInt _ (by decide)) (parseInt_hex8 _ (BitVec.isLt _)) (by decide),
      if_neg]
    rw [hcrc]
    simp

/-- A code of one dataset can be accepted by another one: two unique ids with the same checksums. -/
theorem C46_violated_foreign : ∃ (uid uid' : List Byte), uid.length = 16 ∧ uid'.length = 16 ∧ uid ≠ uid' ∧
    ∃ c, toCode 1 uid = .ok c ∧ toId c uid' = .ok 1 := by
  have hcrc : crc32 (toBytes8 ((1 : Int) % 2 ^ 64).toNat ++ List.replicate 16 0) =
      crc32 (toBytes8 ((1 : Int) % 2 ^ 64).toNat ++
        ([0x01#8, 0x96#8, 0x30#8, 0x07#8, 0x77#8] ++ List.replicate 11 0)) := by decide +kernel
  refine ⟨List.replicate 16 0, [0x01#8, 0x96#8, 0x30#8, 0x07#8, 0x77#8] ++ List.replicate 11 0, by simp, by simp,
    by decide, decInt 1 ++ 'X' :: hex8 (crc32 (toBytes8 ((1 : Int) % 2 ^ 64).toNat ++ List.replicate 16 0)).toNat,
    ?_, ?_⟩
  · unfold toCode
    rw [checksum_ok (by decide)]
    rfl
  · rw [toId_eq (X_notMem_decInt _) (parseInt_decInt _ (by decide)) (parseInt_hex8 _ (BitVec.isLt _)) (by decide),
      if_neg]
    rw [hcrc]
    simp

/-- The test whether a text is an index code is not total: for a number of more than 64 bits it raises
`struct.error`, although the text is no code of any id. -/
theorem C46_violated_test (uid : List Byte) :
    isCode "9223372036854775808X0".toList uid = .error (.exception "struct.error") := by
  have h1 : parseInt 10 (partitionX "9223372036854775808X0".toList).1 = some 9223372036854775808 := by
    decide +kernel
  have h2 : parseInt 16 (partitionX "9223372036854775808X0".toList).2 = some 0 := by decide +kernel
  unfold isCode toId
  rw [h1, h2]
  simp only [checksum, packI64]
  rfl

/-- A code. -/
theorem example_code : toCode 17 [1, 2, 3] = .ok "17X29DFD819".toList := by
  have h1 : decInt 17 = ['1', '7'] := by
    rw [decInt, if_neg (by decide)]
    rw [decDigits, dif_neg (by decide), decDigits, dif_pos (by decide)]
    decide
  have h2 : hex8 (crc32 (toBytes8 ((17 : Int) % 2 ^ 64).toNat ++ [1, 2, 3])).toNat = "29DFD819".toList := by
    decide +kernel
  unfold toCode
  rw [checksum_ok (by decide)]
  simp only [bind, Except.bind, h1, h2]
  rfl

/-- The hypotheses of `C46_changed_id_partial` and `C46_foreign_partial` can be met: the code with the id 18, and
for a dataset with another unique id. -/
example : isCode (decInt 18 ++ 'X' :: "29DFD819".toList) [1, 2, 3] = .ok false ∧
    isCode "17X29DFD819".toList [1, 9, 3] = .ok false := by
  have h17 : decInt 17 = ['1', '7'] := by
    rw [decInt, if_neg (by decide)]
    rw [decDigits, dif_neg (by decide), decDigits, dif_pos (by decide)]
    decide
  constructor
  · exact (C46_changed_id_partial 17 18 [1, 2, 3] "29DFD819".toList (by rw [h17, example_code]; rfl) (by decide)
      (by decide) (by decide)).2
  · exact (C46_foreign_partial 17 [1] [2] [9] [3] _ example_code (by decide) rfl (by decide)).2

end Toron.IndexCode
