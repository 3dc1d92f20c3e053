/-
C120: which files are taken for Toron files.
-/
import Verif.Model.Header
import Verif.Spec.Header

namespace Toron.Header

/-- A database with the sizes that SQLite's format prescribes. -/
def Db.Sized (d : Db) : Prop := d.before.length = 44 ∧ d.between.length = 4 ∧ d.app < 2 ^ 32 ∧ d.version < 2 ^ 32

theorem bigEndian_inj {m n : Nat} (hm : m < 2 ^ 32) (hn : n < 2 ^ 32) (h : bigEndian m = bigEndian n) : m = n := by
  unfold bigEndian at h
  simp only [List.cons.injEq, and_true] at h
  obtain ⟨h1, h2, h3, h4⟩ := h
  replace h1 := congrArg BitVec.toNat h1
  replace h2 := congrArg BitVec.toNat h2
  replace h3 := congrArg BitVec.toNat h3
  replace h4 := congrArg BitVec.toNat h4
  rw [BitVec.toNat_ofNat, BitVec.toNat_ofNat] at h1 h2 h3 h4
  omega

theorem slice_mid (a b c : List Byte) : slice (a ++ (b ++ c)) a.length (a.length + b.length) = b := by
  unfold slice
  rw [← List.append_assoc, List.take_left' (by simp), List.drop_left]

/-- **C120.** A file is taken for a Toron file exactly if it has all three marks at their places, whatever else is in it. -/
theorem C120_recognised (file : List Byte) : isToron file = true ↔ Marked file := by
  have h72 : (file.take 72).take 16 = file.take 16 := by rw [List.take_take]; rfl
  have hs : ∀ a b, b ≤ 72 → slice (file.take 72) a b = slice file a b := by
    intro a b hb
    unfold slice
    rw [List.take_take, Nat.min_eq_left hb]
  unfold isToron
  simp only [Bool.and_eq_true, beq_iff_eq]
  rw [h72, hs 68 72 (by omega), hs 60 64 (by omega)]
  constructor
  · rintro ⟨h1, h2, h3⟩
    have hlen : 72 ≤ file.length := by
      have := congrArg List.length h2
      unfold slice at this
      rw [List.length_drop, List.length_take] at this
      simp only [toronMark, List.length_cons, List.length_nil] at this
      omega
    refine ⟨slice file 16 60, slice file 64 68, file.drop 72, ?_, ?_, ?_⟩
    · unfold slice; rw [List.length_drop, List.length_take]; omega
    · unfold slice; rw [List.length_drop, List.length_take]; omega
    · have e : ∀ a b : Nat, a ≤ b → file.take b = file.take a ++ slice file a b := by
        intro a b hab
        unfold slice
        conv => lhs; rw [← List.take_append_drop a (file.take b)]
        rw [List.take_take, Nat.min_eq_left hab]
      conv => lhs; rw [← List.take_append_drop 72 file]
      rw [e 68 72 (by omega), e 64 68 (by omega), e 60 64 (by omega), e 16 60 (by omega), h1, h2, h3]
      rfl
  · rintro ⟨a, b, r, ha, hb, rfl⟩
    refine ⟨?_, ?_, ?_⟩
    · simp only [List.append_assoc]
      exact List.take_left' rfl
    · have h := slice_mid (sqliteName ++ a ++ dal1 ++ b) toronMark r
      have hl : (sqliteName ++ a ++ dal1 ++ b).length = 68 := by
        simp only [List.length_append, ha, hb]; rfl
      rw [hl] at h
      rw [← List.append_assoc] at h
      exact h
    · have h := slice_mid (sqliteName ++ a) dal1 (b ++ toronMark ++ r)
      have hl : (sqliteName ++ a).length = 60 := by
        simp only [List.length_append, ha]; rfl
      rw [hl] at h
      simp only [← List.append_assoc] at h
      exact h

theorem bigEndian_dal1 : bigEndian (fromBytes dal1) = dal1 := by decide +kernel

theorem bigEndian_mark : bigEndian (fromBytes toronMark) = toronMark := by decide +kernel

/-- Which databases are taken for Toron files. -/
theorem isToron_file {d : Db} (h : d.Sized) :
    isToron d.file = true ↔ d.app = fromBytes toronMark ∧ d.version = fromBytes dal1 := by
  obtain ⟨h1, h2, h3, h4⟩ := h
  rw [C120_recognised]
  constructor
  · rintro ⟨a, b, r, ha, hb, he⟩
    unfold Db.file at he
    simp only [List.append_assoc] at he
    have e1 := (List.append_inj he rfl).2
    have e2 := List.append_inj e1 (h1.trans ha.symm)
    have e3 := List.append_inj e2.2 rfl
    have e4 := List.append_inj e3.2 (h2.trans hb.symm)
    have e5 := List.append_inj e4.2 rfl
    refine ⟨bigEndian_inj h3 (by decide +kernel) ?_, bigEndian_inj h4 (by decide +kernel) ?_⟩
    · rw [bigEndian_mark]; exact e5.1
    · rw [bigEndian_dal1]; exact e3.1
  · rintro ⟨ha, hv⟩
    refine ⟨d.before, d.between, d.rest, h1, h2, ?_⟩
    unfold Db.file
    rw [ha, hv, bigEndian_mark, bigEndian_dal1]
    simp only [List.append_assoc]
    rfl

/-- **C120.** Every database that was made for a new dataspace is taken for a Toron file when it is opened, whatever is
stored in it afterwards. -/
theorem C120_new (d : Db) (h : d.Sized) : isToron d.mark.file = true :=
  (isToron_file (d := d.mark) ⟨h.1, h.2.1, by show fromBytes toronMark < 2 ^ 32; decide +kernel,
    by show fromBytes dal1 < 2 ^ 32; decide +kernel⟩).2 ⟨rfl, rfl⟩

/-- **C120.** A database of another program is refused: it has another application id (19760328 is that of Toron), or
another version number (`DAL1` is 1145130033). -/
theorem C120_refused (d : Db) (h : d.Sized) (ho : d.app ≠ 19760328 ∨ d.version ≠ 1145130033) : isToron d.file = false := by
  rw [← Bool.not_eq_true, isToron_file h]
  rintro ⟨ha, hv⟩
  rcases ho with ho | ho
  · exact ho (ha.trans (by decide +kernel))
  · exact ho (hv.trans (by decide +kernel))

/-- **C120.** A file that is too short to have the marks is refused, so is an empty one. -/
theorem C120_short (file : List Byte) (h : file.length < 72) : isToron file = false := by
  rw [← Bool.not_eq_true, C120_recognised]
  rintro ⟨a, b, r, ha, hb, rfl⟩
  simp only [List.length_append, List.length_cons, List.length_nil, ha, hb] at h
  omega

theorem toBytes_shown {n : Nat} (h : n < 2 ^ 31) : toBytes (shown n) = some (bigEndian n) := by
  unfold shown
  rw [if_pos h]
  unfold toBytes
  rw [if_pos (by constructor <;> omega)]
  rfl

/-- **C120 (part).** The check of an open database gives the same answer as the check of the file, unless one of the
numbers is shown with a minus sign. -/
theorem C120_open_partial (d : Db) (h : d.Sized) (ha : d.app < 2 ^ 31) (hv : d.version < 2 ^ 31) :
    d.isSupported = some (isToron d.file) := by
  unfold Db.isSupported
  rw [toBytes_shown ha, toBytes_shown hv]
  show some (bigEndian d.app == toronMark && bigEndian d.version == dal1) = _
  rw [Option.some_inj, Bool.eq_iff_iff, isToron_file h, Bool.and_eq_true, beq_iff_eq, beq_iff_eq]
  constructor
  · rintro ⟨x, y⟩
    exact ⟨bigEndian_inj h.2.2.1 (by decide +kernel) (x.trans bigEndian_mark.symm),
      bigEndian_inj h.2.2.2 (by decide +kernel) (y.trans bigEndian_dal1.symm)⟩
  · rintro ⟨x, y⟩
    rw [x, y]
    exact ⟨bigEndian_mark, bigEndian_dal1⟩

/-- A database of another program, with the application id `n`. -/
def foreign (n : Nat) : Db := ⟨List.replicate 44 0, 1, List.replicate 4 0, n, [7, 7]⟩

/-- **C120 (violated).** The check of an open database (`is_supported_schema`) should say no to every other database. If
the application id of a database is shown with a minus sign then it raises `OverflowError`. -/
theorem C120_violated_negative (d : Db) (h : 2 ^ 31 ≤ d.app) (h2 : d.app < 2 ^ 32) : d.isSupported = none := by
  have : toBytes (shown d.app) = none := by
    unfold shown
    rw [if_neg (by omega)]
    unfold toBytes
    rw [if_neg (by omega)]
  unfold Db.isSupported
  rw [this]
  rfl

example : (foreign 5).Sized ∧ isToron (foreign 5).file = false ∧ isToron (foreign 5).mark.file = true :=
  ⟨⟨rfl, rfl, by decide, by decide⟩, by decide +kernel, by decide +kernel⟩

example : Marked (foreign 5).mark.file := (C120_recognised _).1 (by decide +kernel)

example : (foreign (2 ^ 31)).Sized ∧ (foreign (2 ^ 31)).isSupported = none :=
  ⟨⟨rfl, rfl, by decide, by decide⟩, C120_violated_negative _ (by decide) (by decide)⟩

end Toron.Header
