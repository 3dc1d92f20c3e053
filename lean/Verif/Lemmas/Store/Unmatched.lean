/-
Which locations match.
-/
import Verif.Model.Store.Select
import Verif.Lemmas.Store.Read
import Verif.Props.BitFlags

namespace Toron.Space

open Toron.Selectors (PyStr)
open Toron.Spec

/-- A structure has one bit for each column. -/
theorem Reachable.structLens {s : Store} (h : Reachable s) : ∀ st ∈ s.structs, st.bits.length = s.cols.length := by
  refine h.of_prim (P := fun s => ∀ st ∈ s.structs, st.bits.length = s.cols.length) (by intro _ st hst; cases hst) ?_
  intro k s s' hp hs
  cases hp with
  | structClear => intro st hst; cases hst
  | structAdd _ g bits hne hlen huniq =>
    intro st hst
    rcases List.mem_append.1 hst with hst | hst
    · exact hs st hst
    · rw [List.mem_singleton] at hst
      subst hst
      exact hlen
  | structGran _ f =>
    intro st hst
    obtain ⟨r, hr, rfl⟩ := List.mem_map.1 hst
    exact hs r hr
  | colAdd _ c =>
    intro st hst
    obtain ⟨r, hr, rfl⟩ := List.mem_map.1 hst
    simp [Store.addCol, hs r hr]
  | colRen =>
    intro st hst
    rw [List.length_map]
    exact hs st hst
  | colDrop _ names =>
    intro st hst
    obtain ⟨r, hr, rfl⟩ := List.mem_map.1 hst
    have hl := hs r hr
    show (keepCols s.cols names r.bits).length = (s.cols.filter fun c => c ∉ names).length
    unfold keepCols
    rw [List.length_map]
    clear hst hr
    generalize r.bits = bits at hl
    generalize s.cols = cols at hl
    induction cols generalizing bits with
    | nil => rfl
    | cons c cs ih =>
      cases bits with
      | nil => simp at hl
      | cons b bs =>
        rw [List.zip_cons_cons, List.filter_cons, List.filter_cons]
        have := ih bs (by simpa using hl)
        by_cases hc : c ∈ names
        · simpa [hc] using this
        · simpa [hc] using this
  | _ => exact hs

theorem ofBits_bytes_eq_iff {a b : List Bool} (h : a.length = b.length) :
    (BitFlags.ofBits a).bytes = (BitFlags.ofBits b).bytes ↔ a = b := by
  constructor
  · intro he
    have h1 := BitFlags.C07_decode_encode a
    have h2 := BitFlags.C07_decode_encode b
    have hs : SameBits a b := by
      intro i
      rw [← h1 i, ← h2 i]
      unfold BitFlags.toBits
      rw [he]
    apply List.ext_getElem h
    intro i hi hj
    have := hs i
    unfold bitAt at this
    rwa [List.getD_eq_getElem _ _ hi, List.getD_eq_getElem _ _ hj] at this
  · rintro rfl
    rfl

theorem structOk_iff {s : Store} (hr : Reachable s) {labels : List PyStr} (hl : labels.length = s.cols.length) :
    s.structOk labels = true ↔ ∃ st ∈ s.structs, st.bits = labels.map fun x => !x.isEmpty := by
  unfold Store.structOk
  rw [List.any_eq_true]
  constructor
  · rintro ⟨st, hst, he⟩
    refine ⟨st, hst, ?_⟩
    have hlen : (nonemptyBits labels).length = st.bits.length := by
      rw [nonemptyBits, List.length_map, hl, hr.structLens st hst]
    exact ((ofBits_bytes_eq_iff hlen).1 (by simpa using he)).symm
  · rintro ⟨st, hst, he⟩
    refine ⟨st, hst, ?_⟩
    rw [he]
    exact beq_self_eq_true _

theorem anyIndex_iff {s : Store} (hr : Reachable s) {labels : List PyStr} (hl : labels.length = s.cols.length) :
    s.anyIndex labels = true ↔ ∃ r ∈ s.index, r.id ≠ 0 ∧ labelsMatch labels r.labels := by
  unfold Store.anyIndex Store.filterByLabel
  rw [List.any_eq_true]
  simp only [List.mem_filter, Bool.true_or, Bool.and_true, bne_iff_ne]
  constructor
  · rintro ⟨r, ⟨h1, h2⟩, h3⟩
    exact ⟨r, h1, h3, (matches_iff hr.colInv.cols hl (hr.indexInv.lens r h1)).1 h2⟩
  · rintro ⟨r, h1, h3, h2⟩
    exact ⟨r, ⟨h1, (matches_iff hr.colInv.cols hl (hr.indexInv.lens r h1)).2 h2⟩, h3⟩

end Toron.Space
