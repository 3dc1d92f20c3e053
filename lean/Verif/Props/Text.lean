/-
C50: SQL identifiers are quoted safely. C51: listings of ambiguous fields.
-/
import Verif.Model.Text
import Verif.Spec.Text
import Verif.Lemmas.BitFlags

namespace Toron.Text

open Toron.Selectors (PyStr)
open Toron.Spec

/-! ### C50 -/

/-- Only names with a NUL character are refused. -/
theorem C50_accepts_iff (v : PyStr) : (∃ q, formatIdentifier v = .ok q) ↔ '\x00' ∉ v := by
  unfold formatIdentifier
  split <;> simp_all

theorem readQuotedRest_double (v rest : PyStr) (h : '\x00' ∉ v) (hrest : rest.head? ≠ some '"') :
    readQuotedRest (doubleQuotes v ++ '"' :: rest) = some (v, rest) := by
  induction v with
  | nil =>
    rw [doubleQuotes, List.nil_append]
    cases rest with
    | nil => rfl
    | cons c cs =>
      have hc : c ≠ '"' := fun e => hrest (by rw [e]; rfl)
      unfold readQuotedRest
      split
      · next h => cases h
      · next h => injection h with h1 h2; injection h2 with h2 h3; exact absurd h2 hc
      · next h => injection h with h1 h2; rw [h2]
      · next h1 h2 h => injection h with h3 h4; exact absurd h3.symm (by rintro rfl; exact h2 rfl)
  | cons c cs ih =>
    simp only [List.mem_cons, not_or] at h
    rw [doubleQuotes]
    by_cases hc : c = '"'
    · subst hc
      rw [if_pos rfl]
      simp only [List.cons_append]
      rw [readQuotedRest, ih h.2]
      rfl
    · rw [if_neg hc]
      simp only [List.cons_append]
      rw [readQuotedRest, if_neg (Ne.symm h.1), ih h.2]
      · rfl
      · intro _ e; exact absurd e hc
      · intro e; exact absurd e hc

/-- SQLite reads the whole quoted text as one identifier, which is the name, and continues after it: no name can end
the identifier early or swallow the following text. -/
theorem C50_reads_back (v q rest : PyStr) (h : formatIdentifier v = .ok q) (hrest : rest.head? ≠ some '"') :
    readQuoted (q ++ rest) = some (v, rest) := by
  unfold formatIdentifier at h
  by_cases hv : '\x00' ∈ v
  · rw [if_pos hv] at h; cases h
  rw [if_neg hv] at h
  cases h
  have : ('"' :: doubleQuotes v ++ ['"']) ++ rest = '"' :: (doubleQuotes v ++ '"' :: rest) := by simp
  rw [this, readQuoted]
  exact readQuotedRest_double v rest hv hrest

/-- Different names have different identifiers. -/
theorem C50_injective (v w q : PyStr) (hv : formatIdentifier v = .ok q) (hw : formatIdentifier w = .ok q) : v = w := by
  have h1 := C50_reads_back v q [] hv (by simp)
  have h2 := C50_reads_back w q [] hw (by simp)
  rw [h1] at h2
  injection h2 with h2
  exact congrArg Prod.fst h2

/-- A list of columns is read back as the same list, followed by the same text. -/
theorem C50_columns (v : PyStr) (vs : List PyStr) (q rest : PyStr) (h : formatColumns (v :: vs) = .ok q)
    (hrest : rest.head? ≠ some '"') : readColumns vs.length (q ++ rest) = some (v :: vs, rest) := by
  induction vs generalizing v q with
  | nil =>
    unfold formatColumns at h
    rw [List.mapM_cons, List.mapM_nil] at h
    rcases hv : formatIdentifier v with e | w
    · rw [hv] at h; cases h
    rw [hv] at h
    cases h
    rw [List.length_nil, readColumns, commaJoin, C50_reads_back v w rest hv hrest]
    rfl
  | cons u us ih =>
    unfold formatColumns at h
    rw [List.mapM_cons] at h
    rcases hv : formatIdentifier v with e | w
    · rw [hv] at h; cases h
    rw [hv] at h
    rcases hus : (u :: us).mapM formatIdentifier with e | ws
    · rw [hus] at h; cases h
    rw [hus] at h
    cases h
    have hf : formatColumns (u :: us) = .ok (commaJoin ws) := by
      unfold formatColumns
      rw [hus]
      rfl
    have := ih u (commaJoin ws) hf
    obtain ⟨x, xs, rfl⟩ : ∃ x xs, ws = x :: xs := by
      cases ws with
      | nil =>
        rw [List.mapM_cons] at hus
        rcases hu : formatIdentifier u with e | y
        · rw [hu] at hus; cases hus
        · rw [hu] at hus
          rcases hys : us.mapM formatIdentifier with e | ys <;> rw [hys] at hus <;> cases hus
      | cons x xs => exact ⟨x, xs, rfl⟩
    have hj : commaJoin (w :: x :: xs) ++ rest = w ++ (',' :: ' ' :: (commaJoin (x :: xs) ++ rest)) := by
      rw [commaJoin]
      · simp
      · simp
    rw [hj, List.length_cons, readColumns, C50_reads_back v w _ hv (by simp)]
    simp only [this]
    rfl

example : formatIdentifier ['a', '"', 'b'] = .ok ['"', 'a', '"', '"', 'b', '"'] := rfl

example : formatColumns [['a'], ['"', ',', ' ', '"']] =
    .ok ['"', 'a', '"', ',', ' ', '"', '"', '"', ',', ' ', '"', '"', '"'] := rfl

/-! ### C51 -/

theorem compress_open (names : List PyStr) (bits : List Bool) (pre : List Bool)
    (h : names.length ≤ bits.length) :
    compress names (bits.map not) = openColumns (pre ++ bits) pre.length names := by
  induction names generalizing bits pre with
  | nil => rfl
  | cons n ns ih =>
    cases bits with
    | nil => simp at h
    | cons b bs =>
      have hb : bitAt (pre ++ b :: bs) pre.length = b := by
        unfold bitAt
        simp
      have hi := ih bs (pre ++ [b]) (by simpa using h)
      rw [List.append_assoc, List.singleton_append, List.length_append, List.length_singleton] at hi
      rw [openColumns, hb, ← hi]
      unfold compress
      cases b <;> simp

theorem zip_take_left {α β : Type} (l : List α) (m : List β) : (l.take m.length).zip m = l.zip m := by
  induction l generalizing m with
  | nil => simp
  | cons x xs ih => cases m <;> simp [ih]

/-- What the listing has in general: the columns that the level does not contain, in order, among the first `8 * n`
columns, where `n` is the number of bytes of the level without its trailing zero bytes. -/
theorem C51_only_open (level : List Byte) (names : List PyStr) :
    ambiguousFields level names =
      openColumns (BitFlags.ofBytes level).toBits 0 (names.take (8 * (rstripZeros level).length)) := by
  have hlen : (BitFlags.ofBytes level).toBits.length = 8 * (rstripZeros level).length := by
    rw [BitFlags.toBits, bytesToBitstream_length, Nat.mul_comm]
    rfl
  have := compress_open (names.take (BitFlags.ofBytes level).toBits.length) (BitFlags.ofBytes level).toBits []
    (by rw [List.length_take]; exact Nat.min_le_left _ _)
  rw [List.nil_append, List.length_nil] at this
  rw [← hlen, ← this]
  unfold ambiguousFields compress
  have e : (BitFlags.ofBytes level).toBits.length = ((BitFlags.ofBytes level).toBits.map not).length := by simp
  rw [e, zip_take_left]

/-- The listing has exactly the columns that the level does not contain, in order, as long as the level, without its
trailing zero bytes, has a bit for every column. -/
theorem C51_fields_partial (level : List Byte) (names : List PyStr)
    (h : names.length ≤ 8 * (rstripZeros level).length) :
    ambiguousFields level names = openColumns (BitFlags.ofBytes level).toBits 0 names := by
  rw [C51_only_open, List.take_of_length_le h]

/-- With at most eight label columns, a level that is not empty always has a bit for every column. -/
theorem C51_up_to_eight_partial (level : List Byte) (names : List PyStr) (h : names.length ≤ 8)
    (hl : ∃ i, bitAt (BitFlags.ofBytes level).toBits i = true) :
    ambiguousFields level names = openColumns (BitFlags.ofBytes level).toBits 0 names := by
  apply C51_fields_partial
  obtain ⟨i, hi⟩ := hl
  rcases hr : rstripZeros level with _ | ⟨b, bs⟩
  · unfold BitFlags.ofBytes BitFlags.toBits at hi
    rw [hr] at hi
    simp [bitAt, bytesToBitstream] at hi
  · rw [List.length_cons]
    omega

/-- No level, no listing; otherwise the names with commas between them, and nothing if there are no names. -/
theorem C51_text (level : List Byte) (names : List PyStr) (hne : ∀ n ∈ names, n ≠ []) :
    ambiguousText none names = none ∧
    (ambiguousFields level names = [] → ambiguousText (some level) names = none) ∧
    (ambiguousFields level names ≠ [] →
      ambiguousText (some level) names = some (commaJoin (ambiguousFields level names))) := by
  refine ⟨rfl, fun h => ?_, fun h => ?_⟩
  · unfold ambiguousText
    simp only [h]
    rfl
  · unfold ambiguousText
    simp only
    rcases hf : ambiguousFields level names with _ | ⟨w, ws⟩
    · exact absurd hf h
    have hw : w ≠ [] := by
      have : w ∈ ambiguousFields level names := by rw [hf]; simp
      unfold ambiguousFields compress at this
      obtain ⟨p, hp, rfl⟩ := List.mem_map.1 this
      exact hne _ (List.of_mem_zip (List.mem_filter.1 hp).1).1
    obtain ⟨c, cs, rfl⟩ : ∃ c cs, w = c :: cs := by
      cases w with
      | nil => exact absurd rfl hw
      | cons c cs => exact ⟨c, cs, rfl⟩
    cases ws with
    | nil => rfl
    | cons x xs => rfl

/-- With nine columns, a level of the first column only: the ninth column is ambiguous but not listed. -/
theorem C51_violated_ninth : ∃ (level : List Byte) (names : List PyStr), names.Nodup ∧ (∀ n ∈ names, n ≠ []) ∧
    ∃ n ∈ openColumns (BitFlags.ofBytes level).toBits 0 names, n ∉ ambiguousFields level names :=
  ⟨[0x80#8], [['a'], ['b'], ['c'], ['d'], ['e'], ['f'], ['g'], ['h'], ['i']], by decide, by decide, ['i'],
    by decide, by decide⟩

/-- A level without columns leaves every column open; none is listed. -/
theorem C51_violated_empty (names : List PyStr) :
    openColumns (BitFlags.ofBytes []).toBits 0 names = names ∧ ambiguousText (some []) names = none := by
  constructor
  · have : ∀ i (ns : List PyStr), openColumns (BitFlags.ofBytes []).toBits i ns = ns := by
      intro i ns
      induction ns generalizing i with
      | nil => rfl
      | cons n ns ih =>
        rw [openColumns, ih]
        rfl
    exact this 0 names
  · cases names <;> rfl

example : ambiguousText (some [0x80#8]) [['f'], ['b'], ['z']] = some ['b', ',', ' ', 'z'] := by decide

end Toron.Text
