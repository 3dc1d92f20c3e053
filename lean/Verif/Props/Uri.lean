/-
C72: the file that is opened is the one that was named.
-/
import Verif.Lemmas.Uri

namespace Toron.Uri

open Toron.Selectors (PyStr)

theorem sq_split {α : Type} [DecidableEq α] {x d : α} (hd : d ≠ x) (a b : List α) (prev : Bool) :
    sq x prev (a ++ d :: b) = sq x prev a ++ d :: sq x false b := by
  induction a generalizing prev with
  | nil => simp [sq, beq_false_of_ne hd]
  | cons c a ih =>
    rw [List.cons_append, sq, sq, ih, ih]
    split <;> rfl

theorem squeeze_mem {t : PyStr} {c : Char} {prev : Bool} (h : c ∈ squeeze prev t) : c ∈ t := by
  induction t generalizing prev with
  | nil => exact h
  | cons d t ih =>
    rw [squeeze] at h
    split at h
    · exact List.mem_cons_of_mem _ (ih h)
    · rcases List.mem_cons.1 h with rfl | h
      · exact List.mem_cons_self
      · exact List.mem_cons_of_mem _ (ih h)

/-- SQLite opens the file with the name that was given, whatever characters are in it, and finds no other option than
the mode. Only repeated slashes are made single ones, which name the same file. What is missing for the full property:
paths with a null character (`C72_violated_null`). -/
theorem C72_opened_partial {path : PyStr} (h0 : Char.ofNat 0 ∉ path) {mode : Option PyStr}
    (hm : ∀ m, mode = some m → m ∈ modes) {p : PyStr} (hp : Collapsed path p) :
    parseUri (makeUri path mode) = some ⟨utf8 p, modeOption mode⟩ := by
  rw [hp.eq, parseUri_makeUri, scan_bytes (utf8_zero fun h => h0 (squeeze_mem h)), scan_mode hm]
  rfl

/-- Every path has just one form without repeated slashes. -/
theorem C72_collapsed (path : PyStr) : ∃ p, Collapsed path p ∧ ∀ q, Collapsed path q → q = p :=
  ⟨_, collapsed_squeeze path, fun _ h => h.eq⟩

example : Collapsed ['/', 'a', '/', '/', '?', 'x', '=', '#', '%'] ['/', 'a', '/', '?', 'x', '=', '#', '%'] ∧
    makeUri ['/', 'a', '/', '/', '?', ' ', 'ü', '#', '%'] (some ['r', 'o']) =
      "file:/a/%3F%20%C3%BC%23%25?mode=ro".toList :=
  ⟨collapsed_squeeze _, by decide +kernel⟩

/-- Paths of different files have different names for SQLite. -/
theorem C72_injective {path path' : PyStr} (h0 : Char.ofNat 0 ∉ path) (h0' : Char.ofNat 0 ∉ path')
    {mode mode' : Option PyStr} (hm : ∀ m, mode = some m → m ∈ modes) (hm' : ∀ m, mode' = some m → m ∈ modes)
    (h : makeUri path mode = makeUri path' mode') : mode = mode' ∧ ∃ p, Collapsed path p ∧ Collapsed path' p := by
  have h1 := C72_opened_partial h0 hm (collapsed_squeeze path)
  rw [h, C72_opened_partial h0' hm' (collapsed_squeeze path')] at h1
  simp only [Option.some.injEq, Target.mk.injEq] at h1
  refine ⟨?_, _, collapsed_squeeze path, ?_⟩
  · have h2 := h1.2
    cases mode with
    | none =>
      cases mode' with
      | none => rfl
      | some m' => cases h2
    | some m =>
      cases mode' with
      | none => cases h2
      | some m' =>
        simp only [modeOption, List.cons.injEq, Prod.mk.injEq, and_true, true_and] at h2
        rw [utf8_inj h2]
  · rw [← utf8_inj h1.1]
    exact collapsed_squeeze path'

/-- Of a path with a null character SQLite opens the file that is named before that character: another file than the
one that was named, with the same options. -/
theorem C72_violated_null {a b : PyStr} (h0 : Char.ofNat 0 ∉ a) {mode : Option PyStr}
    (hm : ∀ m, mode = some m → m ∈ modes) :
    parseUri (makeUri (a ++ Char.ofNat 0 :: b) mode) = parseUri (makeUri a mode) := by
  have hsplit : squeeze false (a ++ Char.ofNat 0 :: b) = squeeze false a ++ Char.ofNat 0 :: squeeze false b := by
    rw [squeeze_eq, squeeze_eq, squeeze_eq, sq_split (by decide)]
  rw [parseUri_makeUri, parseUri_makeUri, hsplit, utf8_append, utf8_cons, List.flatMap_append, List.append_assoc,
    scan_bytes (utf8_zero fun h => h0 (squeeze_mem h)), scan_bytes (utf8_zero fun h => h0 (squeeze_mem h)), scan_mode hm]
  have hz : (String.utf8EncodeChar (Char.ofNat 0) ++ utf8 (squeeze false b)).flatMap quoteByte =
      '%' :: '0' :: '0' :: (utf8 (squeeze false b)).flatMap quoteByte := rfl
  rw [hz, List.cons_append, List.cons_append, List.cons_append, scan_file (by decide), if_pos rfl]
  dsimp only
  rw [show hexValue '0' = some 0 from rfl]
  dsimp only
  rw [if_pos rfl, scan_skip, scan_mode hm]
  intro c hc
  obtain ⟨x, _, hx⟩ := List.mem_flatMap.1 hc
  exact ⟨(quoteByte_chars x c hx).1, (quoteByte_chars x c hx).2.1⟩

end Toron.Uri
