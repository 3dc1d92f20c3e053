/-
Property theorems about fingerprints and the tie-break shuffle (C09, C10).
-/
import Verif.Lemmas.Hashing

namespace Toron

/-- C09: a sequence is accepted iff it is strictly increasing and every value is an unsigned
64-bit integer; otherwise a `ValueError` is raised and there is no fingerprint. -/
theorem C09_accepts_iff (ids : List Int) :
    (ids.Pairwise (· < ·) ∧ (∀ v ∈ ids, 0 ≤ v ∧ v < 2 ^ 64) → ∃ m, seqHash ids = .ok m) ∧
    (¬ (ids.Pairwise (· < ·) ∧ ∀ v ∈ ids, 0 ≤ v ∧ v < 2 ^ 64) →
      ∃ t, seqHash ids = .error (.valueError t)) := by
  have H := foldlM_addValue_ok ids SeqHash.empty
  have hprev : SeqHash.empty.prev = -1 := rfl
  constructor
  · rintro ⟨hp, hb⟩
    obtain ⟨t, ht, _⟩ := H.1 ⟨hp, fun v hv => ⟨by have := hb v hv; omega, hb v hv⟩⟩
    exact ⟨t.message, by simp [seqHash, ht, Except.map]⟩
  · intro hn
    obtain ⟨m, hm⟩ := H.2 (fun h => hn ⟨h.1, fun v hv => (h.2 v hv).2⟩)
    exact ⟨m, by simp [seqHash, hm, Except.map]⟩

/-- C09: two accepted sequences with the same fingerprinted message are the same sequence. -/
theorem C09_fingerprint_determines_ids (a b : List Int) (m : List Byte)
    (ha : seqHash a = .ok m) (hb : seqHash b = .ok m) : a = b := by
  have facts : ∀ l : List Int, seqHash l = .ok m →
      (∀ v ∈ l, 0 ≤ v ∧ v < 2 ^ 64) ∧ m = (l.map Int.toNat).flatMap toBytes8 := by
    intro l hl
    by_cases hc : l.Pairwise (· < ·) ∧ ∀ v ∈ l, 0 ≤ v ∧ v < 2 ^ 64
    · obtain ⟨t, ht, hm⟩ := (foldlM_addValue_ok l SeqHash.empty).1
        ⟨hc.1, fun v hv => ⟨by have := hc.2 v hv; simp [SeqHash.empty]; omega, hc.2 v hv⟩⟩
      simp only [seqHash, ht, Except.map, Except.ok.injEq] at hl
      refine ⟨hc.2, ?_⟩
      rw [← hl, hm]; simp [SeqHash.empty, List.flatMap_map]
    · obtain ⟨t, ht⟩ := (C09_accepts_iff l).2 hc
      rw [ht] at hl; cases hl
  obtain ⟨ha1, ha2⟩ := facts a ha
  obtain ⟨hb1, hb2⟩ := facts b hb
  have hinj := flatMap_toBytes8_inj (a.map Int.toNat) (b.map Int.toNat)
    (by intro x hx; obtain ⟨v, hv, rfl⟩ := List.mem_map.1 hx; have := ha1 v hv; omega)
    (by intro x hx; obtain ⟨v, hv, rfl⟩ := List.mem_map.1 hx; have := hb1 v hv; omega)
    (by rw [← ha2, ← hb2])
  have back : ∀ l : List Int, (∀ v ∈ l, 0 ≤ v ∧ v < 2 ^ 64) →
      (l.map Int.toNat).map (fun n : Nat => (n : Int)) = l := by
    intro l hl
    rw [List.map_map]
    conv => rhs; rw [← List.map_id l]
    apply List.map_congr_left
    intro v hv
    have := hl v hv
    simp; omega
  rw [← back a ha1, ← back b hb1, hinj]

-- sequences that meet the hypotheses, and one that is rejected
example : (seqHash [0, 1, 2, 5, 6]).toOption.isSome = true := by decide
example : seqHash [0, 1, 1] = .error (.valueError "illegal value") := by decide

/-- C10: the tie-break function maps 64-bit integers one-to-one onto 64-bit integers. -/
theorem C10_splitmix64_bijective :
    Function.Bijective (fun x : Fin (2 ^ 64) => (⟨splitmix64 x.1, splitmix64_lt x.1⟩ : Fin (2 ^ 64))) := by
  rw [← Finite.injective_iff_bijective]
  intro x y h
  exact Fin.ext (splitmix64_inj x.1 y.1 x.2 y.2 (congrArg Fin.val h))

/-- C10: two different 64-bit ids never tie. -/
theorem C10_no_ties (x y : Nat) (hx : x < 2 ^ 64) (hy : y < 2 ^ 64) (hne : x ≠ y) :
    splitmix64 x ≠ splitmix64 y :=
  fun h => hne (splitmix64_inj x y hx hy h)

-- the published first output of SplitMix64 seeded with 0
example : splitmix64 0 = 0xe220a8397b1dcdaf := by decide

end Toron
