/-
Lemmas about CRC-32, decimal and hexadecimal text.
-/
import Verif.Model.IndexCode
import Verif.Lemmas.Hashing

namespace Toron.IndexCode

open Toron.Selectors (PyStr isSpace)

/-! ### CRC-32 -/

theorem getLsbD_crcBit (s : BitVec 32) (i : Nat) (_hi : i < 32) :
    (crcBit s).getLsbD i = ((s.getLsbD (i + 1)) ^^ (s.getLsbD 0 && (0xEDB88320#32).getLsbD i)) := by
  unfold crcBit
  by_cases h : s.getLsbD 0 = true
  · rw [if_pos h, BitVec.getLsbD_xor, BitVec.getLsbD_ushiftRight, h, Bool.true_and, Nat.add_comm]
  · rw [if_neg h, BitVec.getLsbD_ushiftRight, Nat.add_comm, Bool.eq_false_iff.2 h, Bool.false_and,
      Bool.xor_false]

theorem crcBit_xor (s t : BitVec 32) : crcBit (s ^^^ t) = crcBit s ^^^ crcBit t := by
  apply BitVec.eq_of_getLsbD_eq
  intro i hi
  rw [BitVec.getLsbD_xor, getLsbD_crcBit _ _ hi, getLsbD_crcBit _ _ hi, getLsbD_crcBit _ _ hi,
    BitVec.getLsbD_xor, BitVec.getLsbD_xor]
  cases s.getLsbD (i + 1) <;> cases t.getLsbD (i + 1) <;> cases s.getLsbD 0 <;> cases t.getLsbD 0 <;>
    cases (0xEDB88320#32).getLsbD i <;> rfl

theorem crcBit_zero_imp (s : BitVec 32) (h : crcBit s = 0) : s = 0 := by
  have key : ∀ i, i < 32 → ((s.getLsbD (i + 1)) ^^ (s.getLsbD 0 && (0xEDB88320#32).getLsbD i)) = false := by
    intro i hi
    rw [← getLsbD_crcBit s i hi, h]
    simp
  have h0 : s.getLsbD 0 = false := by
    have := key 31 (by omega)
    have e : (0xEDB88320#32).getLsbD 31 = true := by decide
    rw [e, Bool.and_true, BitVec.getLsbD_of_ge s 32 (by omega)] at this
    simpa using this
  apply BitVec.eq_of_getLsbD_eq
  intro i hi
  rcases i with _ | i
  · rw [h0]; simp
  · have := key i (by omega)
    rw [h0] at this
    simpa using this

theorem crc8_xor (s t : BitVec 32) : crc8 (s ^^^ t) = crc8 s ^^^ crc8 t := by
  unfold crc8
  simp only [crcBit_xor]

theorem crc8_zero_imp (s : BitVec 32) (h : crc8 s = 0) : s = 0 := by
  unfold crc8 at h
  exact crcBit_zero_imp _ (crcBit_zero_imp _ (crcBit_zero_imp _ (crcBit_zero_imp _ (crcBit_zero_imp _
    (crcBit_zero_imp _ (crcBit_zero_imp _ (crcBit_zero_imp _ h)))))))

theorem xor_eq_zero {n : Nat} {a b : BitVec n} (h : a ^^^ b = 0) : a = b := by
  have : (a ^^^ b) ^^^ b = 0#n ^^^ b := by rw [h]; rfl
  rwa [BitVec.xor_assoc, BitVec.xor_self, BitVec.xor_zero, BitVec.zero_xor] at this

theorem crc8_injective {s t : BitVec 32} (h : crc8 s = crc8 t) : s = t := by
  apply xor_eq_zero
  apply crc8_zero_imp
  rw [crc8_xor, h, BitVec.xor_self]
  rfl

/-- Bytes after the same prefix: the suffix keeps different registers apart. -/
theorem foldl_crc_injective (bs : List Byte) {s t : BitVec 32}
    (h : bs.foldl crcByte s = bs.foldl crcByte t) : s = t := by
  induction bs generalizing s t with
  | nil => exact h
  | cons b bs ih =>
    have h' := crc8_injective (ih h)
    have : (s ^^^ b.setWidth 32) ^^^ b.setWidth 32 = (t ^^^ b.setWidth 32) ^^^ b.setWidth 32 := by rw [h']
    rwa [BitVec.xor_assoc, BitVec.xor_assoc, BitVec.xor_self, BitVec.xor_zero, BitVec.xor_zero] at this

/-- The bytes of a window as one word, the first byte lowest. -/
def window : List Byte → BitVec 32
  | [] => 0
  | b :: bs => b.setWidth 32 ^^^ (window bs <<< 8)

theorem getLsbD_window_ge (bs : List Byte) (i : Nat) (hi : 8 * bs.length ≤ i) : (window bs).getLsbD i = false := by
  induction bs generalizing i with
  | nil => simp [window]
  | cons b bs ih =>
    rw [List.length_cons] at hi
    unfold window
    rw [BitVec.getLsbD_xor, BitVec.getLsbD_setWidth, BitVec.getLsbD_shiftLeft, ih (i - 8) (by omega),
      BitVec.getLsbD_of_ge b i (by omega)]
    simp

theorem crcBit_shl (x : BitVec 32) (h : x.getLsbD 31 = false) : crcBit (x <<< 1) = x := by
  apply BitVec.eq_of_getLsbD_eq
  intro i hi
  rw [getLsbD_crcBit _ _ hi, BitVec.getLsbD_shiftLeft, BitVec.getLsbD_shiftLeft]
  simp only [decide_true, Nat.zero_lt_one, Bool.not_true, Bool.and_false, Bool.false_and,
    Bool.xor_false, Nat.add_sub_cancel]
  by_cases h31 : i = 31
  · subst h31
    rw [h]
    simp
  · have : decide (i + 1 < 32) = true := by simp; omega
    rw [this]
    simp

theorem crc8_shl (x : BitVec 32) (h : ∀ i, 24 ≤ i → x.getLsbD i = false) : crc8 (x <<< 8) = x := by
  have e : ∀ k, x <<< (k + 1) = (x <<< k) <<< 1 := fun k => by rw [BitVec.shiftLeft_add]
  have hk : ∀ k, k ≤ 7 → (x <<< k).getLsbD 31 = false := by
    intro k hk
    rw [BitVec.getLsbD_shiftLeft, h (31 - k) (by omega)]
    simp
  unfold crc8
  rw [e 7, crcBit_shl _ (hk 7 (by omega)), e 6, crcBit_shl _ (hk 6 (by omega)), e 5,
    crcBit_shl _ (hk 5 (by omega)), e 4, crcBit_shl _ (hk 4 (by omega)), e 3, crcBit_shl _ (hk 3 (by omega)),
    e 2, crcBit_shl _ (hk 2 (by omega)), e 1, crcBit_shl _ (hk 1 (by omega)), e 0,
    crcBit_shl _ (hk 0 (by omega))]
  exact BitVec.shiftLeft_zero x

/-- `n` empty bytes. -/
def zeros : Nat → BitVec 32 → BitVec 32
  | 0, s => s
  | n + 1, s => zeros n (crc8 s)

theorem zeros_injective (n : Nat) {s t : BitVec 32} (h : zeros n s = zeros n t) : s = t := by
  induction n generalizing s t with
  | zero => exact h
  | succ n ih => exact crc8_injective (ih h)

theorem foldl_crc_window (bs : List Byte) (hl : bs.length ≤ 4) (s : BitVec 32) :
    bs.foldl crcByte s = zeros bs.length (s ^^^ window bs) := by
  induction bs generalizing s with
  | nil => simp [zeros, window]
  | cons b bs ih =>
    rw [List.length_cons] at hl
    rw [List.foldl_cons, ih (by omega), List.length_cons, zeros, window, ← BitVec.xor_assoc, crc8_xor, crcByte,
      crc8_shl (window bs) fun i hi => getLsbD_window_ge bs i (by omega)]

theorem window_injective (a b : List Byte) (hl : a.length = b.length) (h4 : a.length ≤ 4)
    (h : window a = window b) : a = b := by
  induction a generalizing b with
  | nil => rw [List.length_nil] at hl; exact (List.eq_nil_of_length_eq_zero hl.symm).symm
  | cons x xs ih =>
    rcases b with _ | ⟨y, ys⟩
    · simp at hl
    simp only [List.length_cons] at hl h4
    have hbit : ∀ i, (window (x :: xs)).getLsbD i = (window (y :: ys)).getLsbD i := fun i => by rw [h]
    have hxy : x = y := by
      apply BitVec.eq_of_getLsbD_eq
      intro i hi
      have := hbit i
      simp only [window, BitVec.getLsbD_xor, BitVec.getLsbD_setWidth, BitVec.getLsbD_shiftLeft] at this
      have h1 : decide (i < 8) = true := by simpa using hi
      have h2 : decide (i < 32) = true := by simp; omega
      simpa [h1, h2] using this
    subst hxy
    rw [ih ys (by omega) (by omega)]
    apply BitVec.eq_of_getLsbD_eq
    intro i hi
    by_cases hi' : i < 24
    · have := hbit (i + 8)
      simp only [window, BitVec.getLsbD_xor, BitVec.getLsbD_setWidth, BitVec.getLsbD_shiftLeft] at this
      have h1 : decide (i + 8 < 8) = false := by simp
      have h2 : decide (i + 8 < 32) = true := by simp; omega
      rw [BitVec.getLsbD_of_ge x (i + 8) (by omega)] at this
      simpa [h1, h2] using this
    · rw [getLsbD_window_ge xs i (by omega), getLsbD_window_ge ys i (by omega)]

/-- Messages of the same length that differ only within four consecutive bytes have different CRCs. -/
theorem crc32_burst (pre w w' suf : List Byte) (hl : w.length = w'.length) (h4 : w.length ≤ 4)
    (h : crc32 (pre ++ w ++ suf) = crc32 (pre ++ w' ++ suf)) : w = w' := by
  unfold crc32 at h
  have h1 : (pre ++ w ++ suf).foldl crcByte 0xFFFFFFFF#32 = (pre ++ w' ++ suf).foldl crcByte 0xFFFFFFFF#32 := by
    have := congrArg (· ^^^ 0xFFFFFFFF#32) h
    simpa only [BitVec.xor_assoc, BitVec.xor_self, BitVec.xor_zero] using this
  rw [List.foldl_append, List.foldl_append, List.foldl_append, List.foldl_append] at h1
  have h2 := foldl_crc_injective suf h1
  rw [foldl_crc_window w h4, foldl_crc_window w' (by omega), ← hl] at h2
  have h3 := zeros_injective _ h2
  apply window_injective w w' hl h4
  have := congrArg (pre.foldl crcByte 0xFFFFFFFF#32 ^^^ ·) h3
  simpa only [← BitVec.xor_assoc, BitVec.xor_self, BitVec.zero_xor] using this

theorem foldl_crc_xor {a b : List Byte} (hl : a.length = b.length) {s t s' t' : BitVec 32}
    (h : s ^^^ t = s' ^^^ t') :
    a.foldl crcByte s ^^^ b.foldl crcByte t = a.foldl crcByte s' ^^^ b.foldl crcByte t' := by
  induction a generalizing b s t s' t' with
  | nil =>
    cases b with
    | nil => exact h
    | cons _ _ => cases hl
  | cons x a ih =>
    cases b with
    | nil => cases hl
    | cons y b =>
      rw [List.foldl_cons, List.foldl_cons, List.foldl_cons, List.foldl_cons]
      apply ih (by simpa using hl)
      unfold crcByte
      rw [← crc8_xor, ← crc8_xor]
      congr 1
      have e : ∀ p q x y : BitVec 32, (p ^^^ x) ^^^ (q ^^^ y) = (p ^^^ q) ^^^ (x ^^^ y) := by
        intro p q x y
        ac_rfl
      rw [e s t, e s' t', h]

/-- Whether two checksums agree does not depend on what comes before. -/
theorem crc32_prefix {u u' : List Byte} (hl : u.length = u'.length) (pre : List Byte) :
    crc32 (pre ++ u) = crc32 (pre ++ u') ↔ crc32 u = crc32 u' := by
  have key : ∀ x y : BitVec 32, x ^^^ 0xFFFFFFFF#32 = y ^^^ 0xFFFFFFFF#32 ↔ x ^^^ y = 0 := by
    intro x y
    constructor
    · intro h
      have := congrArg (· ^^^ 0xFFFFFFFF#32) h
      simp only [BitVec.xor_assoc, BitVec.xor_self, BitVec.xor_zero] at this
      rw [this, BitVec.xor_self]
      rfl
    · intro h
      rw [xor_eq_zero h]
  unfold crc32
  rw [key, key, List.foldl_append, List.foldl_append, foldl_crc_xor hl (s' := 0xFFFFFFFF#32) (t' := 0xFFFFFFFF#32)]
  rw [BitVec.xor_self, BitVec.xor_self]

/-! ### Numbers as text -/

theorem digitVal_digitChar (n : Nat) (h : n < 16) :
    digitVal (digitChar n) = some n ∧ digitChar n ≠ '_' ∧ digitChar n ≠ 'X' ∧ digitChar n ≠ 'x' ∧
      digitChar n ≠ '-' ∧ digitChar n ≠ '+' ∧ isSpace (digitChar n) = false := by
  revert n
  decide

theorem parseDigits_dec (n acc : Nat) (p : Bool) (rest : PyStr) :
    ∃ k, parseDigits 10 acc p (decDigits n ++ rest) = parseDigits 10 (acc * 10 ^ k + n) true rest := by
  induction n using Nat.strong_induction_on generalizing acc p rest with
  | _ n ih =>
    by_cases h : n < 10
    · refine ⟨1, ?_⟩
      obtain ⟨h1, h2, _⟩ := digitVal_digitChar n (by omega)
      rw [decDigits, dif_pos h, List.singleton_append, parseDigits, if_neg h2]
      simp only [h1, if_pos h, pow_one]
    · obtain ⟨k, hk⟩ := ih (n / 10) (by omega) acc p (digitChar (n % 10) :: rest)
      refine ⟨k + 1, ?_⟩
      rw [decDigits, dif_neg h, List.append_assoc, List.singleton_append, hk]
      obtain ⟨h1, h2, _⟩ := digitVal_digitChar (n % 10) (by omega)
      rw [parseDigits, if_neg h2]
      simp only [h1, if_pos (show n % 10 < 10 by omega)]
      congr 1
      rw [pow_succ, ← Nat.mul_assoc]
      have := Nat.div_add_mod n 10
      omega

theorem decDigits_ne_nil (n : Nat) : decDigits n ≠ [] := by
  rw [decDigits]
  split <;> simp

theorem mem_decDigits {n : Nat} {c : Char} (h : c ∈ decDigits n) : ∃ d, d < 10 ∧ c = digitChar d := by
  induction n using Nat.strong_induction_on with
  | _ n ih =>
    rw [decDigits] at h
    split at h
    · next hn => exact ⟨n, hn, by simpa using h⟩
    · next hn =>
      rcases List.mem_append.1 h with h | h
      · exact ih (n / 10) (by omega) h
      · exact ⟨n % 10, by omega, by simpa using h⟩

theorem length_decDigits (n k : Nat) (h : n < 10 ^ (k + 1)) : (decDigits n).length ≤ k + 1 := by
  induction k generalizing n with
  | zero =>
    rw [decDigits, dif_pos (by simpa using h)]
    simp
  | succ k ih =>
    rw [decDigits]
    split
    · simp
    · rw [List.length_append, List.length_singleton]
      have : n / 10 < 10 ^ (k + 1) := by
        rw [Nat.div_lt_iff_lt_mul (by norm_num)]
        rwa [pow_succ] at h
      exact Nat.add_le_add_right (ih _ this) 1

theorem strip_eq_self {s : PyStr} (h : ∀ c ∈ s, isSpace c = false) : strip s = s := by
  have drop : ∀ l : PyStr, (∀ c ∈ l, isSpace c = false) → l.dropWhile isSpace = l := by
    intro l hl
    rcases l with _ | ⟨c, cs⟩
    · rfl
    · rw [List.dropWhile_cons_of_neg]
      rw [hl c (by simp)]
      simp
  unfold strip
  rw [drop s h, drop s.reverse (by simpa using h), List.reverse_reverse]

theorem parseInt_decInt (i : Int) (hi : -2 ^ 63 ≤ i ∧ i < 2 ^ 63) : parseInt 10 (decInt i) = some i := by
  have hsp : ∀ n, ∀ c ∈ decDigits n, isSpace c = false := by
    intro n c hc
    obtain ⟨d, hd, rfl⟩ := mem_decDigits hc
    exact (digitVal_digitChar d (by omega)).2.2.2.2.2.2
  have hnat : i.natAbs < 10 ^ (20 + 1) := by
    have : i.natAbs ≤ 2 ^ 63 := by omega
    calc i.natAbs ≤ 2 ^ 63 := this
      _ < 10 ^ 21 := by norm_num
  have hlen := length_decDigits _ _ hnat
  have huns : parseUnsigned 10 (decDigits i.natAbs) = some i.natAbs := by
    unfold parseUnsigned
    rw [if_neg]
    · have : dropPrefix 10 (decDigits i.natAbs) = decDigits i.natAbs := by
        unfold dropPrefix
        split
        · next h =>
          rw [h]
          rfl
        · rfl
      rw [this]
      obtain ⟨k, hk⟩ := parseDigits_dec i.natAbs 0 false []
      rw [List.append_nil] at hk
      rw [hk]
      simp [parseDigits]
    · have := List.length_filter_le (fun c => c != '_') (decDigits i.natAbs)
      omega
  unfold parseInt decInt
  by_cases hneg : i < 0
  · rw [if_pos hneg]
    have hs : strip ('-' :: decDigits i.natAbs) = '-' :: decDigits i.natAbs := by
      apply strip_eq_self
      intro c hc
      rcases List.mem_cons.1 hc with rfl | hc
      · decide
      · exact hsp _ c hc
    rw [hs, parseSigned, if_pos rfl, huns, Option.map_some]
    congr 1
    omega
  · rw [if_neg hneg]
    have hs : strip (decDigits i.natAbs) = decDigits i.natAbs := strip_eq_self (hsp _)
    rw [hs]
    rcases hd : decDigits i.natAbs with _ | ⟨c, cs⟩
    · exact absurd hd (decDigits_ne_nil _)
    · obtain ⟨d, hd10, hcd⟩ := mem_decDigits (n := i.natAbs) (c := c) (by rw [hd]; simp)
      obtain ⟨_, _, _, _, hm, hp, _⟩ := digitVal_digitChar d (by omega)
      rw [hd] at huns
      rw [parseSigned, if_neg (hcd ▸ hm), if_neg (hcd ▸ hp), huns, Option.map_some]
      congr 1
      omega

theorem parseInt_hex8 (n : Nat) (h : n < 2 ^ 32) : parseInt 16 (hex8 n) = some (n : Int) := by
  have hd : ∀ i, n / 16 ^ i % 16 < 16 := fun i => Nat.mod_lt _ (by norm_num)
  unfold parseInt
  have hs : strip (hex8 n) = hex8 n := by
    apply strip_eq_self
    intro c hc
    obtain ⟨i, _, rfl⟩ := List.mem_map.1 hc
    exact (digitVal_digitChar _ (hd i)).2.2.2.2.2.2
  rw [hs]
  have hpre : dropPrefix 16 (hex8 n) = hex8 n := by
    unfold dropPrefix
    split
    · next x rest hx =>
      have hx' : digitChar (n / 16 ^ 6 % 16) = x := by
        unfold hex8 at hx
        simp only [List.map_cons] at hx
        exact (List.cons.inj (List.cons.inj hx).2).1
      obtain ⟨_, _, hX, hx2, _⟩ := digitVal_digitChar _ (hd 6)
      rw [if_neg]
      · exact hx.symm
      · rintro ⟨_, h | h⟩
        · exact hx2 (hx'.trans h)
        · exact hX (hx'.trans h)
    · rfl
  have hval : parseDigits 16 0 false (hex8 n) = some n := by
    have step : ∀ acc p i rest, parseDigits 16 acc p (digitChar (n / 16 ^ i % 16) :: rest) =
        parseDigits 16 (acc * 16 + n / 16 ^ i % 16) true rest := by
      intro acc p i rest
      obtain ⟨h1, h2, _⟩ := digitVal_digitChar _ (hd i)
      rw [parseDigits, if_neg h2]
      simp only [h1, if_pos (hd i)]
    unfold hex8
    simp only [List.map_cons, List.map_nil, step]
    rw [parseDigits, if_pos rfl]
    congr 1
    omega
  obtain ⟨c, cs, hc⟩ : ∃ c cs, hex8 n = c :: cs := ⟨_, _, rfl⟩
  have : digitChar (n / 16 ^ 7 % 16) = c := by
    unfold hex8 at hc
    simp only [List.map_cons] at hc
    exact (List.cons.inj hc).1
  obtain ⟨_, _, _, _, hm, hp, _⟩ := digitVal_digitChar _ (hd 7)
  rw [hc, parseSigned, if_neg fun e => hm (this.trans e), if_neg fun e => hp (this.trans e), ← hc, parseUnsigned,
    if_neg (by simp), hpre, hval, Option.map_some]

theorem partitionX_eq (a b : PyStr) (h : 'X' ∉ a) : partitionX (a ++ 'X' :: b) = (a, b) := by
  induction a with
  | nil => simp [partitionX]
  | cons c cs ih =>
    rw [List.cons_append, partitionX, if_neg fun e => h (by simp [e]), ih fun e => h (by simp [e])]

theorem partitionX_spec (s : PyStr) : 'X' ∉ (partitionX s).1 ∧
    (s = (partitionX s).1 ++ 'X' :: (partitionX s).2 ∨ (s = (partitionX s).1 ∧ (partitionX s).2 = [])) := by
  induction s with
  | nil => simp [partitionX]
  | cons c cs ih =>
    unfold partitionX
    by_cases h : c = 'X'
    · simp [h]
    · rw [if_neg h]
      refine ⟨by simpa [Ne.symm h] using ih.1, ?_⟩
      rcases ih.2 with h2 | h2
      · left; simpa using h2
      · right; exact ⟨by simpa using h2.1, h2.2⟩

theorem X_notMem_decInt (i : Int) : 'X' ∉ decInt i := by
  have : ∀ n, 'X' ∉ decDigits n := by
    intro n h
    obtain ⟨d, hd, he⟩ := mem_decDigits h
    exact (digitVal_digitChar d (by omega)).2.2.1 he.symm
  unfold decInt
  split
  · simp [this]
  · exact this _

end Toron.IndexCode
