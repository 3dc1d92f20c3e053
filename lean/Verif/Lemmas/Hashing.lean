import Verif.Model.Hashing
import Mathlib.Data.Fintype.Card
import Mathlib.Data.Fintype.EquivFin
import Mathlib.Tactic.NormNum

namespace Toron

theorem toBytes8_length (n : Nat) : (toBytes8 n).length = 8 := by simp [toBytes8]

theorem toBytes8_inj (m n : Nat) (hm : m < 2 ^ 64) (hn : n < 2 ^ 64)
    (h : toBytes8 m = toBytes8 n) : m = n := by
  simp only [toBytes8, List.map_cons, List.map_nil, List.cons.injEq, and_true] at h
  obtain ⟨h7, h6, h5, h4, h3, h2, h1, h0⟩ := h
  have conv : ∀ a b : Nat, BitVec.ofNat 8 a = BitVec.ofNat 8 b → a % 256 = b % 256 := by
    intro a b hab
    have := congrArg BitVec.toNat hab
    simpa using this
  have step : ∀ k, m / 256 ^ (k + 1) = n / 256 ^ (k + 1) →
      BitVec.ofNat 8 (m / 256 ^ k) = BitVec.ofNat 8 (n / 256 ^ k) → m / 256 ^ k = n / 256 ^ k := by
    intro k h1 h2
    have h3 := conv _ _ h2
    rw [Nat.pow_succ, ← Nat.div_div_eq_div_mul, ← Nat.div_div_eq_div_mul] at h1
    rw [← Nat.div_add_mod (m / 256 ^ k) 256, ← Nat.div_add_mod (n / 256 ^ k) 256, h1, h3]
  have e8 : m / 256 ^ 8 = n / 256 ^ 8 := by
    rw [Nat.div_eq_of_lt (lt_of_lt_of_eq hm (by norm_num)),
      Nat.div_eq_of_lt (lt_of_lt_of_eq hn (by norm_num))]
  have e0 := step 0 (step 1 (step 2 (step 3 (step 4 (step 5 (step 6 (step 7 e8 h7) h6) h5) h4) h3) h2) h1) h0
  simpa using e0

theorem foldlM_addValue_ok (values : List Int) (s : SeqHash) :
    (values.Pairwise (· < ·) ∧ (∀ v ∈ values, s.prev < v ∧ 0 ≤ v ∧ v < 2 ^ 64) →
      ∃ t, values.foldlM SeqHash.addValue s = .ok t ∧
        t.message = s.message ++ values.flatMap (fun v => toBytes8 v.toNat)) ∧
    (¬ (values.Pairwise (· < ·) ∧ ∀ v ∈ values, s.prev < v ∧ 0 ≤ v ∧ v < 2 ^ 64) →
      ∃ m, values.foldlM SeqHash.addValue s = .error (.valueError m)) := by
  induction values generalizing s with
  | nil => simp [pure, Except.pure]
  | cons v vs ih =>
    constructor
    · rintro ⟨hp, hb⟩
      rw [List.pairwise_cons] at hp
      have hv := hb v (by simp)
      have hstep : s.addValue v = .ok { message := s.message ++ toBytes8 v.toNat, prev := v } := by
        unfold SeqHash.addValue
        rw [if_neg (by omega), if_neg (by omega)]
      obtain ⟨t, ht, hm⟩ := (ih { message := s.message ++ toBytes8 v.toNat, prev := v }).1
        ⟨hp.2, fun w hw => ⟨hp.1 w hw, (hb w (by simp [hw])).2⟩⟩
      refine ⟨t, ?_, ?_⟩
      · simp only [List.foldlM_cons, hstep]; exact ht
      · simp [hm]
    · intro hn
      unfold SeqHash.addValue at *
      simp only [List.foldlM_cons]
      by_cases h1 : v > s.prev
      · by_cases h2 : v < 0 ∨ v ≥ 2 ^ 64
        · simp only [not_not.2 h1, if_false, h2, if_true]; exact ⟨_, rfl⟩
        · simp only [not_not.2 h1, if_false, h2]
          apply (ih { message := s.message ++ toBytes8 v.toNat, prev := v }).2
          rintro ⟨hp, hb⟩
          apply hn
          rw [List.pairwise_cons]
          refine ⟨⟨fun w hw => (hb w hw).1, hp⟩, ?_⟩
          intro w hw
          rcases List.mem_cons.1 hw with rfl | hw
          · omega
          · have h3 := hb w hw
            have h4 : v < w := h3.1
            exact ⟨by omega, h3.2⟩
      · simp only [h1, not_false_eq_true, if_true]; exact ⟨_, rfl⟩

theorem flatMap_toBytes8_inj (a b : List Nat) (ha : ∀ x ∈ a, x < 2 ^ 64) (hb : ∀ x ∈ b, x < 2 ^ 64)
    (h : a.flatMap toBytes8 = b.flatMap toBytes8) : a = b := by
  induction a generalizing b with
  | nil =>
    cases b with
    | nil => rfl
    | cons y ys =>
      have := congrArg List.length h
      simp [toBytes8_length] at this; try omega
  | cons x xs ih =>
    cases b with
    | nil =>
      have := congrArg List.length h
      simp [toBytes8_length] at this; try omega
    | cons y ys =>
      simp only [List.flatMap_cons] at h
      obtain ⟨h1, h2⟩ := List.append_inj h (by simp [toBytes8_length])
      rw [toBytes8_inj x y (ha x (by simp)) (hb y (by simp)) h1,
        ih ys (fun z hz => ha z (by simp [hz])) (fun z hz => hb z (by simp [hz])) h2]

/-! ### splitmix64 -/

theorem and_mask64 (x : Nat) : x &&& mask64 = x % 2 ^ 64 := by
  have : mask64 = 2 ^ 64 - 1 := by decide
  rw [this, Nat.and_two_pow_sub_one_eq_mod]

theorem xorshift_inj (k : Nat) (hk : 0 < k) (x y : Nat)
    (h : x ^^^ (x >>> k) = y ^^^ (y >>> k)) : x = y := by
  have hz : (x ^^^ y) = (x ^^^ y) >>> k := by
    rw [Nat.shiftRight_xor_distrib]
    have h2 : (x ^^^ (x >>> k)) ^^^ (y ^^^ (x >>> k)) = (y ^^^ (y >>> k)) ^^^ (y ^^^ (x >>> k)) := by rw [h]
    have e1 : (x ^^^ (x >>> k)) ^^^ (y ^^^ (x >>> k)) = x ^^^ y := by
      apply Nat.eq_of_testBit_eq; intro i; simp only [Nat.testBit_xor]
      cases x.testBit i <;> cases y.testBit i <;> cases (x >>> k).testBit i <;> rfl
    have e2 : (y ^^^ (y >>> k)) ^^^ (y ^^^ (x >>> k)) = (x >>> k) ^^^ (y >>> k) := by
      apply Nat.eq_of_testBit_eq; intro i; simp only [Nat.testBit_xor]
      cases (x >>> k).testBit i <;> cases y.testBit i <;> cases (y >>> k).testBit i <;> rfl
    rw [e1, e2] at h2; exact h2
  have h0 : x ^^^ y = 0 := by
    by_contra hne
    have hpos : 0 < x ^^^ y := Nat.pos_of_ne_zero hne
    have : (x ^^^ y) >>> k < x ^^^ y := by
      rw [Nat.shiftRight_eq_div_pow]
      exact Nat.div_lt_self hpos (Nat.one_lt_two_pow (by omega))
    omega
  apply Nat.eq_of_testBit_eq
  intro i
  have := congrArg (fun n => n.testBit i) h0
  simp only [Nat.testBit_xor, Nat.zero_testBit] at this
  cases hx : x.testBit i <;> cases hy : y.testBit i <;> simp_all

theorem xorshift_lt (k x : Nat) (hx : x < 2 ^ 64) : x ^^^ (x >>> k) < 2 ^ 64 :=
  Nat.xor_lt_two_pow hx (lt_of_le_of_lt (Nat.shiftRight_le x k) hx)

theorem mulmod_inj (c c' : Nat) (hc : c * c' % 2 ^ 64 = 1) (x y : Nat) (hx : x < 2 ^ 64)
    (hy : y < 2 ^ 64) (h : x * c % 2 ^ 64 = y * c % 2 ^ 64) : x = y := by
  have key : ∀ z, z < 2 ^ 64 → (z * c % 2 ^ 64) * c' % 2 ^ 64 = z := by
    intro z hz
    rw [Nat.mod_mul_mod, Nat.mul_assoc, Nat.mul_mod, hc, Nat.mul_one, Nat.mod_mod]
    exact Nat.mod_eq_of_lt hz
  rw [← key x hx, ← key y hy, h]

theorem splitmix64_lt (x : Nat) : splitmix64 x < 2 ^ 64 := by
  unfold splitmix64
  apply xorshift_lt
  rw [and_mask64]; exact Nat.mod_lt _ (by decide)

theorem mixstep_inj (k c c' : Nat) (hk : 0 < k) (hc : c * c' % 2 ^ 64 = 1) (a b : Nat)
    (ha : a < 2 ^ 64) (hb : b < 2 ^ 64)
    (h : (a ^^^ (a >>> k)) * c % 2 ^ 64 = (b ^^^ (b >>> k)) * c % 2 ^ 64) : a = b :=
  xorshift_inj k hk a b
    (mulmod_inj c c' hc _ _ (xorshift_lt k a ha) (xorshift_lt k b hb) h)

/-- One multiply step, as a function. -/
def mixstep (k c a : Nat) : Nat := (a ^^^ (a >>> k)) * c % 2 ^ 64

theorem mixstep_lt (k c a : Nat) : mixstep k c a < 2 ^ 64 := Nat.mod_lt _ (Nat.two_pow_pos 64)

theorem splitmix64_eq (x : Nat) :
    splitmix64 x = (fun a => a ^^^ (a >>> 31))
      (mixstep 27 0x94d049bb133111eb (mixstep 30 0xbf58476d1ce4e5b9
        ((x + 0x9e3779b97f4a7c15) % 2 ^ 64))) := by
  unfold splitmix64 mixstep
  simp only [and_mask64]

theorem splitmix64_inj (x y : Nat) (hx : x < 2 ^ 64) (hy : y < 2 ^ 64)
    (h : splitmix64 x = splitmix64 y) : x = y := by
  rw [splitmix64_eq, splitmix64_eq] at h
  have h3 := xorshift_inj 31 (by decide) _ _ h
  have h2 := mixstep_inj 27 0x94d049bb133111eb 0x319642b2d24d8ec3 (by decide) (by decide)
    _ _ (mixstep_lt _ _ _) (mixstep_lt _ _ _) h3
  have h1 := mixstep_inj 30 0xbf58476d1ce4e5b9 0x96de1b173f119089 (by decide) (by decide)
    _ _ (Nat.mod_lt _ (Nat.two_pow_pos 64)) (Nat.mod_lt _ (Nat.two_pow_pos 64)) h2
  clear h h3 h2
  omega

end Toron
