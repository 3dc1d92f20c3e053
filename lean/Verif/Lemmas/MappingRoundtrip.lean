/-
Lemmas about reading a written table, and about matching rows that name their records.
-/
import Verif.Props.MappingCsv
import Verif.Props.Mapper

namespace Toron.MappingCsv

open Toron.Selectors (PyStr)
open Toron.Space
open Toron.IndexCode (isCode toId toCode)
open Toron.Mapper

/-! ### The written table -/

/-- The cells for one record: a code and labels, or all empty. -/
def CodeCell (uid : List Byte) (id : Option Int) (n : Nat) (cells : List PyStr) : Prop :=
  ∃ c ls, cells = c :: ls ∧ ls.length = n ∧
    ((∃ i, id = some i ∧ toCode i uid = .ok c) ∨ id = none ∧ c = [] ∧ ∀ x ∈ ls, x = [])

theorem sourceCells_ok {s : Store} (hr : Reachable s) {uid : List Byte} {id : Option Int} {cells : List PyStr}
    (h : sourceCells s uid id = .ok cells) : CodeCell uid id s.cols.length cells := by
  cases id with
  | none =>
    cases h
    exact ⟨[], _, rfl, by simp, .inr ⟨rfl, rfl, by simp⟩⟩
  | some i =>
    unfold sourceCells at h
    rw [bindE_ok] at h
    obtain ⟨c, hc, h⟩ := h
    cases h
    refine ⟨c, _, rfl, ?_, .inl ⟨i, rfl, hc⟩⟩
    unfold sourceLabels
    split
    · rename_i r hf
      exact hr.indexInv.lens r (List.mem_of_find?_eq_some hf)
    · simp

theorem targetCells_ok {s : Store} (hr : Reachable s) {uid : List Byte} {id : Option Nat} {cells : List PyStr}
    (h : targetCells s uid id = .ok cells) :
    CodeCell uid (id.map Int.ofNat) s.cols.length cells ∧ ∀ i, id = some i → i ∈ s.ids := by
  cases id with
  | none =>
    cases h
    exact ⟨⟨[], _, rfl, by simp, .inr ⟨rfl, rfl, by simp⟩⟩, fun _ h => nomatch h⟩
  | some i =>
    unfold targetCells at h
    dsimp only at h
    split at h
    · rename_i r hf
      rw [bindE_ok] at h
      obtain ⟨c, hc, h⟩ := h
      cases h
      have hm := List.mem_of_find?_eq_some hf
      have he : r.id = i := by simpa using List.find?_some hf
      refine ⟨⟨c, _, rfl, hr.indexInv.lens r hm, .inl ⟨_, rfl, hc⟩⟩, ?_⟩
      rintro _ ⟨⟩
      exact he ▸ List.mem_map_of_mem hm
    · cases h

/-- A row of the written table. -/
structure WrittenRow (N : Numbers) (u1 u2 : List Byte) (n1 n2 : Nat) (amb : List PyStr) (e : MapElement)
    (row : List PyStr) : Prop where
  cells : ∃ a b, row = a ++ [(e.value.map N.text).getD []] ++ b ++ amb ∧ CodeCell u1 e.source n1 a ∧
    CodeCell u2 (e.target.map Int.ofNat) n2 b
  blank : e.level = none → ∀ x ∈ amb, x = []

theorem writeRow_ok {N : Numbers} {src trg : Store} (hs : Reachable src) (ht : Reachable trg) {u1 u2 : List Byte}
    {amb : Bool} {e : MapElement} {row : List PyStr} (h : writeRow N src trg u1 u2 amb e = .ok row) :
    (∃ x, WrittenRow N u1 u2 src.cols.length trg.cols.length (if amb then [x] else []) e row) ∧
    ∀ i, e.target = some i → i ∈ trg.ids := by
  unfold writeRow at h
  simp only [bindE_ok] at h
  obtain ⟨a, ha, b, hb, h⟩ := h
  cases h
  refine ⟨⟨_, ⟨a, b, rfl, sourceCells_ok hs ha, (targetCells_ok ht hb).1⟩, ?_⟩, (targetCells_ok ht hb).2⟩
  intro hl x hx
  rw [hl] at hx
  cases amb with
  | false => cases hx
  | true => exact List.mem_singleton.1 hx

theorem isCode_toCode {i : Int} {uid : List Byte} {c : PyStr} (h : toCode i uid = .ok c) :
    isCode c uid = .ok true ∧ toId c uid = .ok i ∧ c ≠ [] := by
  obtain ⟨hi, hc⟩ := IndexCode.toCode_ok h
  obtain ⟨c', h1, h2, h3⟩ := IndexCode.C46_round_trip i uid hi
  rw [h] at h1
  cases h1
  refine ⟨h3, h2, ?_⟩
  rw [hc]
  simp

theorem isCode_nil (uid : List Byte) : isCode [] uid = .ok false := by
  unfold isCode toId
  rfl

/-- Everything that is needed about a written table. -/
structure Written (N : Numbers) (u1 u2 : List Byte) (n1 n2 k : Nat) (els : List MapElement) (t : Table) : Prop where
  rows : List.Forall₂ (fun e row => ∃ amb, WrittenRow N u1 u2 n1 n2 amb e row ∧ amb.length = k) els t.rows
  first : ∃ rest, els = ⟨some 0, some 0, none, some 0⟩ :: rest
  blank : ∀ e ∈ els, e.target = none → e.level = none

theorem writeMapping_ok {N : Numbers} {src trg : Store} (hs : Reachable src) (ht : Reachable trg) {u1 u2 : List Byte}
    {h1 h2 link : PyStr} {t : Table} (h : writeMapping N src trg u1 u2 h1 h2 link = .ok t) :
    ∃ l ∈ trg.links, l.other = src.uid ∧ l.name = link ∧ trg.mappingElements src link = .ok (trg.linkElements src l) ∧
      (∀ e ∈ trg.linkElements src l, ∀ i, e.target = some i → i ∈ trg.ids) ∧
      ∃ amb : Bool, Written N u1 u2 src.cols.length trg.cols.length (if amb then 1 else 0) (trg.linkElements src l) t ∧
        t.header = h1 :: src.cols ++ link :: h2 :: trg.cols ++ (if amb then [ambiguousHeader] else []) := by
  unfold writeMapping at h
  split at h
  · cases h
  rename_i l hl
  rw [bindE_ok] at h
  obtain ⟨rows, hrows, h⟩ := h
  cases h
  rw [mapM_forall₂] at hrows
  have hm := List.mem_of_getLast? hl
  obtain ⟨hm, hn⟩ := List.mem_filter.1 hm
  obtain ⟨hm, ho⟩ := List.mem_filter.1 hm
  refine ⟨l, hm, by simpa using ho, by simpa using hn, ?_, ?_, _, ⟨?_, ⟨_, rfl⟩, ?_⟩, rfl⟩
  · unfold Store.mappingElements
    rw [hl]
  · intro e he
    obtain ⟨k, hk, rfl⟩ := List.mem_iff_getElem.1 he
    have := (List.forall₂_iff_get.1 hrows).2 k hk (by rw [← hrows.length_eq]; exact hk)
    exact (writeRow_ok hs ht this).2
  · refine hrows.imp fun e row he => ?_
    obtain ⟨x, hx⟩ := (writeRow_ok hs ht he).1
    refine ⟨_, hx, ?_⟩
    split <;> rfl
  · intro e he ht
    unfold Store.linkElements at he
    rw [List.mem_append, List.mem_append, List.mem_append] at he
    rcases he with ((he | he) | he) | he
    · rw [List.mem_singleton.1 he]
    · obtain ⟨m, _, rfl⟩ := List.mem_map.1 he
      cases ht
    · split at he
      · cases he
      · obtain ⟨m, _, rfl⟩ := List.mem_map.1 he
        rfl
    · split at he
      · cases he
      · obtain ⟨m, _, rfl⟩ := List.mem_map.1 he
        rfl

section

variable {N : Numbers} {u1 u2 : List Byte} {n1 n2 : Nat} {amb : List PyStr} {e : MapElement} {row : List PyStr}

theorem WrittenRow.at (h : WrittenRow N u1 u2 n1 n2 amb e row) :
    ∃ c1 l1 c2 l2, row = c1 :: (l1 ++ (e.value.map N.text).getD [] :: c2 :: (l2 ++ amb)) ∧ l1.length = n1 ∧
      l2.length = n2 ∧
      ((∃ i, e.source = some i ∧ toCode i u1 = .ok c1) ∨ e.source = none ∧ c1 = [] ∧ ∀ x ∈ l1, x = []) ∧
      ((∃ i : Nat, e.target = some i ∧ toCode i u2 = .ok c2) ∨ e.target = none ∧ c2 = [] ∧ ∀ x ∈ l2, x = []) := by
  obtain ⟨a, b, rfl, ⟨c1, l1, rfl, k1, x1⟩, ⟨c2, l2, rfl, k2, x2⟩⟩ := h.cells
  refine ⟨c1, l1, c2, l2, by simp, k1, k2, x1, ?_⟩
  rcases x2 with ⟨i, hi, hc⟩ | ⟨hi, hc⟩
  · rw [Option.map_eq_some_iff] at hi
    obtain ⟨j, hj, rfl⟩ := hi
    exact .inl ⟨j, hj, hc⟩
  · exact .inr ⟨by simpa using hi, hc⟩

theorem WrittenRow.codes (h : WrittenRow N u1 u2 n1 n2 amb e row) (hl : u1.length = u2.length)
    (hid : IndexCode.crc32 u1 ≠ IndexCode.crc32 u2)
    (hc : ∀ p c, row[p]? = some c → p ≠ 0 → p ≠ n1 + 2 → isCode c u1 = .ok false ∧ isCode c u2 = .ok false) :
    (∀ p, HasCode u1 row p ↔ p = 0 ∧ e.source.isSome) ∧ (∀ p, HasCode u2 row p ↔ p = n1 + 2 ∧ e.target.isSome) ∧
    (∀ c ∈ row, (∃ b, isCode c u1 = .ok b) ∧ ∃ b, isCode c u2 = .ok b) := by
  obtain ⟨c1, l1, c2, l2, rfl, k1, k2, x1, x2⟩ := h.at
  have e0 : (c1 :: (l1 ++ (e.value.map N.text).getD [] :: c2 :: (l2 ++ amb)))[0]? = some c1 := rfl
  have e2 : (c1 :: (l1 ++ (e.value.map N.text).getD [] :: c2 :: (l2 ++ amb)))[n1 + 2]? = some c2 := by
    rw [List.getElem?_cons_succ, ← k1, List.getElem?_append_right (by omega)]
    rw [show l1.length + 1 - l1.length = 1 by omega]
    rfl
  generalize c1 :: (l1 ++ (e.value.map N.text).getD [] :: c2 :: (l2 ++ amb)) = row at *
  have a1 : isCode c1 u1 = .ok e.source.isSome ∧ isCode c1 u2 = .ok false := by
    rcases x1 with ⟨i, hi, ht⟩ | ⟨hi, rfl, _⟩
    · rw [hi]
      exact ⟨(isCode_toCode ht).1, ((IndexCode.C46_foreign_iff i u1 u2 c1 hl ht).2 hid).2⟩
    · rw [hi]
      exact ⟨isCode_nil _, isCode_nil _⟩
  have a2 : isCode c2 u2 = .ok e.target.isSome ∧ isCode c2 u1 = .ok false := by
    rcases x2 with ⟨i, hi, ht⟩ | ⟨hi, rfl, _⟩
    · rw [hi]
      exact ⟨(isCode_toCode ht).1, ((IndexCode.C46_foreign_iff i u2 u1 c2 hl.symm ht).2 hid.symm).2⟩
    · rw [hi]
      exact ⟨isCode_nil _, isCode_nil _⟩
  refine ⟨fun p => ?_, fun p => ?_, fun c hcm => ?_⟩
  · unfold HasCode
    by_cases h0 : p = 0
    · subst h0
      rw [e0]
      simp [a1.1]
    by_cases h2 : p = n1 + 2
    · subst h2
      rw [e2]
      simp [a2.2]
    · simp only [h0, false_and, iff_false, not_exists, not_and]
      intro c hpc
      rw [(hc p c hpc h0 h2).1]
      simp
  · unfold HasCode
    by_cases h0 : p = 0
    · subst h0
      rw [e0]
      simp [a1.2]
    by_cases h2 : p = n1 + 2
    · subst h2
      rw [e2]
      simp [a2.1]
    · simp only [h2, false_and, iff_false, not_exists, not_and]
      intro c hpc
      rw [(hc p c hpc h0 h2).2]
      simp
  · obtain ⟨p, hp⟩ := List.getElem?_of_mem hcm
    by_cases h0 : p = 0
    · subst h0
      rw [e0] at hp
      cases hp
      exact ⟨⟨_, a1.1⟩, _, a1.2⟩
    by_cases h2 : p = n1 + 2
    · subst h2
      rw [e2] at hp
      cases hp
      exact ⟨⟨_, a2.2⟩, _, a2.1⟩
    · exact ⟨⟨_, (hc p c hp h0 h2).1⟩, _, (hc p c hp h0 h2).2⟩

end

/-- What is read from a row of a written table. -/
structure ReadBack (N : Numbers) (m1 m2 : Nat) (e : MapElement) (x : Line) : Prop where
  id1 : x.id1 = e.source
  len1 : x.labels1.length = m1
  blank1 : e.source = none → ∀ y ∈ x.labels1, y = []
  id2 : x.id2 = e.target.map Int.ofNat
  len2 : x.labels2.length = m2
  blank2 : e.target = none → ∀ y ∈ x.labels2, y = []
  value : N.value x.value = e.value.getD 0

theorem location_exists {header cols row : List PyStr} {p : Nat × Nat} {l : List (Option Nat)}
    (hp : labelPositions header cols p = .ok l) (hrow : ∀ i, p.1 ≤ i → i < p.2 → i < header.length → i < row.length) :
    ∃ labels, location l row = .ok labels ∧ labels.length = cols.length ∧
      ∀ y ∈ labels, y = [] ∨ ∃ i, p.1 ≤ i ∧ i < p.2 ∧ row[i]? = some y := by
  have hnd := labelPositions_nodup hp
  unfold labelPositions at hp
  rw [if_pos hnd] at hp
  cases hp
  have hex : ∀ c ∈ cols, ∃ y, (fun i : Option Nat => match i with
      | some i => cell row i
      | none => Except.ok []) (((slice header p).findIdx? fun x => x == c).map fun i => i + p.1) = .ok y ∧
      (y = [] ∨ ∃ i, p.1 ≤ i ∧ i < p.2 ∧ row[i]? = some y) := by
    intro c _
    rcases hf : (slice header p).findIdx? fun x => x == c with _ | k
    · exact ⟨[], rfl, .inl rfl⟩
    · rw [List.findIdx?_eq_some_iff_getElem] at hf
      obtain ⟨hk, h1, _⟩ := hf
      have hk' : k < header.length ∧ p.1 + k < p.2 ∧ p.1 + k < header.length := by
        unfold slice at hk
        rw [List.length_drop, List.length_take] at hk
        omega
      have hlt := hrow (p.1 + k) (by omega) hk'.2.1 hk'.2.2
      refine ⟨row[p.1 + k], ?_, .inr ⟨p.1 + k, by omega, hk'.2.1, List.getElem?_eq_getElem hlt⟩⟩
      show cell row (k + p.1) = _
      rw [cell_ok, Nat.add_comm, List.getElem?_eq_getElem hlt]
  have : ∃ labels, List.Forall₂ (fun c y => (fun i : Option Nat => match i with
      | some i => cell row i
      | none => Except.ok []) (((slice header p).findIdx? fun x => x == c).map fun i => i + p.1) = .ok y ∧
      (y = [] ∨ ∃ i, p.1 ≤ i ∧ i < p.2 ∧ row[i]? = some y)) cols labels := by
    clear hnd
    induction cols with
    | nil => exact ⟨[], .nil⟩
    | cons c cs ih =>
      obtain ⟨y, hy⟩ := hex c (by simp)
      obtain ⟨ys, hys⟩ := ih fun c hc => hex c (by simp [hc])
      exact ⟨y :: ys, .cons hy hys⟩
  obtain ⟨labels, hl⟩ := this
  refine ⟨labels, ?_, hl.length_eq.symm, ?_⟩
  · unfold location
    rw [mapM_forall₂, List.forall₂_map_left_iff]
    exact hl.imp fun _ _ h => h.1
  · intro y hy
    obtain ⟨k, hk, rfl⟩ := List.mem_iff_getElem.1 hy
    exact ((List.forall₂_iff_get.1 hl).2 k (by rw [hl.length_eq]; exact hk) hk).2

theorem forall₂_exists {α β γ : Type} {R : α → β → Prop} {f : β → Except Err γ} {S : α → γ → Prop} {l : List α}
    {l' : List β} (h : List.Forall₂ R l l') (hf : ∀ a b, a ∈ l → b ∈ l' → R a b → ∃ c, f b = .ok c ∧ S a c) :
    ∃ out, l'.mapM f = .ok out ∧ List.Forall₂ S l out := by
  induction h with
  | nil => exact ⟨[], rfl, .nil⟩
  | cons hab _ ih =>
    rename_i a b l l' _
    obtain ⟨c, hc, hs⟩ := hf a b (by simp) (by simp) hab
    obtain ⟨out, ho, hS⟩ := ih fun a b ha hb => hf a b (by simp [ha]) (by simp [hb])
    refine ⟨c :: out, ?_, .cons hs hS⟩
    rw [mapM_forall₂] at ho ⊢
    exact .cons hc ho

/-- A written table that is clear is read as it was written. -/
theorem readTable_written {edge : PyStr → Option PyStr} {N : Numbers} {u1 u2 : List Byte} {c1 c2 cols1 cols2 : List PyStr}
    {h1 h2 link : PyStr} {els : List MapElement} {t : Table} {amb : Bool}
    (hw : Written N u1 u2 c1.length c2.length (if amb then 1 else 0) els t)
    (hh : t.header = h1 :: c1 ++ link :: h2 :: c2 ++ (if amb then [ambiguousHeader] else []))
    (hn1 : c1.Nodup) (hn2 : c2.Nodup) (hc : Clear edge u1 u2 c1 c2 h1 h2 link t) :
    ∃ lines, readTable edge cols1 cols2 u1 u2 link t = .ok lines ∧
      List.Forall₂ (ReadBack N cols1.length cols2.length) els lines := by
  have hv : valuePosition edge link t.header = some (c1.length + 1) := by
    rw [valuePosition_some, hh]
    refine ⟨⟨link, ?_, .inl rfl⟩, fun j c hj hjc => ?_⟩
    · rw [List.append_assoc, List.getElem?_append_right (by simp)]
      simp
    · rw [List.append_assoc, List.getElem?_append_left (by simpa using hj)] at hjc
      exact hc.names c (List.mem_of_getElem? hjc)
  have hcodes : ∀ row ∈ t.rows, (∀ p, HasCode u1 row p → p = 0) ∧ (∀ p, HasCode u2 row p → p = c1.length + 2) ∧
      ∀ c ∈ row, (∃ b, isCode c u1 = .ok b) ∧ ∃ b, isCode c u2 = .ok b := by
    intro row hrow
    obtain ⟨k, hk, rfl⟩ := List.mem_iff_getElem.1 hrow
    obtain ⟨am, hwr, _⟩ := (List.forall₂_iff_get.1 hw.rows).2 k (by rw [hw.rows.length_eq]; exact hk) hk
    obtain ⟨a, b, c⟩ := hwr.codes hc.length hc.ids (hc.cells _ hrow)
    exact ⟨fun p hp => ((a p).1 hp).1, fun p hp => ((b p).1 hp).1, c⟩
  obtain ⟨rest, hfirst⟩ := hw.first
  have hrows1 : ∃ r0 rs, t.rows = r0 :: rs ∧ HasCode u1 r0 0 ∧ HasCode u2 r0 (c1.length + 2) := by
    have := hw.rows
    rw [hfirst] at this
    rcases hr : t.rows with _ | ⟨r0, rs⟩
    · rw [hr] at this; cases this
    · rw [hr] at this
      cases this with
      | cons hx _ =>
        obtain ⟨am, hwr, _⟩ := hx
        obtain ⟨a, b, _⟩ := hwr.codes hc.length hc.ids (hc.cells _ (by rw [hr]; simp))
        exact ⟨r0, rs, rfl, (a 0).2 ⟨rfl, rfl⟩, (b _).2 ⟨rfl, rfl⟩⟩
  obtain ⟨r0, rs, hr0, hc1, hc2⟩ := hrows1
  have hmem : r0 ∈ t.rows.take 8 := by rw [hr0]; simp
  have hscan : scan u1 u2 32 none none t.rows = .ok (some 0, some (c1.length + 2)) := by
    obtain ⟨q1, hq1⟩ := codePosition_exists (uid := u1) (rows := t.rows.take 8)
      fun row hrow c hcm => ((hcodes row (List.mem_of_mem_take hrow)).2.2 c hcm).1
    obtain ⟨q2, hq2⟩ := codePosition_exists (uid := u2) (rows := t.rows.take 8)
      fun row hrow c hcm => ((hcodes row (List.mem_of_mem_take hrow)).2.2 c hcm).2
    have f1 := codePosition_only hq1 ⟨r0, hmem, hc1⟩ fun row hrow p hp => (hcodes row (List.mem_of_mem_take hrow)).1 p hp
    have f2 := codePosition_only hq2 ⟨r0, hmem, hc2⟩ fun row hrow p hp => (hcodes row (List.mem_of_mem_take hrow)).2.1 p hp
    rw [f1] at hq1
    rw [f2] at hq2
    unfold scan
    rw [if_neg (by rw [hr0]; simp)]
    show (codePosition u1 (t.rows.take 8) >>= _) = _
    rw [hq1]
    show (codePosition u2 (t.rows.take 8) >>= _) = _
    rw [hq2]
    rfl
  have hlen : c1.length + 2 < t.header.length := by
    rw [hh]; simp only [List.length_append, List.length_cons]; omega
  have hpos : columnPositions edge cols1 cols2 u1 u2 link t = .ok ⟨some 0, (0, c1.length + 1), some (c1.length + 2),
      (c1.length + 2, t.header.length), c1.length + 1⟩ := by
    unfold columnPositions
    rw [hv]
    dsimp only
    rw [hscan, bindE_ok]
    refine ⟨_, rfl, ?_⟩
    dsimp only
    rw [if_neg (by simp)]
    unfold partOf leftPart rightPart
    rw [if_pos (by omega), if_neg (by omega)]
  have s1 : slice t.header (0, c1.length + 1) = h1 :: c1 := by
    unfold slice
    rw [hh, List.drop_zero, List.append_assoc, List.take_append_of_le_length (by simp)]
    simp
  have s2 : slice t.header (c1.length + 2, t.header.length) = h2 :: c2 ++ (if amb then [ambiguousHeader] else []) := by
    unfold slice
    rw [List.take_length, hh, show h1 :: c1 ++ link :: h2 :: c2 ++ (if amb then [ambiguousHeader] else []) =
      (h1 :: c1 ++ [link]) ++ (h2 :: c2 ++ (if amb then [ambiguousHeader] else [])) by simp,
      show c1.length + 2 = (h1 :: c1 ++ [link]).length by simp, List.drop_left]
  have d1 : (slice t.header (0, c1.length + 1)).Nodup := by
    rw [s1]; exact List.nodup_cons.2 ⟨hc.header1, hn1⟩
  have d2 : (slice t.header (c1.length + 2, t.header.length)).Nodup := by
    rw [s2]
    have hcons : (h2 :: c2).Nodup := List.nodup_cons.2 ⟨hc.header2, hn2⟩
    cases amb with
    | false => simpa using hcons
    | true =>
      rw [if_pos rfl, List.nodup_append]
      refine ⟨hcons, List.nodup_singleton _, ?_⟩
      intro a ha b hb he
      rw [List.mem_singleton] at hb
      subst hb
      exact hc.ambiguous (he ▸ ha)
  obtain ⟨l1, g1⟩ : ∃ l, labelPositions t.header cols1 (0, c1.length + 1) = .ok l := by
    unfold labelPositions; rw [if_pos d1]; exact ⟨_, rfl⟩
  obtain ⟨l2, g2⟩ : ∃ l, labelPositions t.header cols2 (c1.length + 2, t.header.length) = .ok l := by
    unfold labelPositions; rw [if_pos d2]; exact ⟨_, rfl⟩
  have hrd : ∃ lines, t.rows.mapM (readRow u1 u2 ⟨some 0, (0, c1.length + 1), some (c1.length + 2),
      (c1.length + 2, t.header.length), c1.length + 1⟩ l1 l2) = .ok lines ∧
      List.Forall₂ (ReadBack N cols1.length cols2.length) els lines := by
    refine forall₂_exists hw.rows ?_
    rintro e row hel hrow ⟨am, hwr, ham⟩
    obtain ⟨k1, ls1, k2, ls2, hre, n1, n2, x1, x2⟩ := hwr.at
    have hlen' : t.header.length = c1.length + 3 + c2.length + am.length := by
      rw [hh, ham]
      simp only [List.length_append, List.length_cons]
      split <;> simp <;> omega
    have hrl : row.length = t.header.length := by
      rw [hlen', hre]
      simp only [List.length_append, List.length_cons]
      omega
    have e0 : row[0]? = some k1 := by rw [hre]; rfl
    have ev : row[c1.length + 1]? = some ((e.value.map N.text).getD []) := by
      rw [hre, List.getElem?_cons_succ, ← n1, List.getElem?_append_right (by omega)]
      simp
    have e2 : row[c1.length + 2]? = some k2 := by
      rw [hre, List.getElem?_cons_succ, ← n1, List.getElem?_append_right (by omega)]
      rw [show ls1.length + 1 - ls1.length = 1 by omega]
      rfl
    obtain ⟨la1, q1, q2, q3⟩ := location_exists (row := row) g1 fun i _ _ h => by rw [hrl]; exact h
    obtain ⟨la2, q4, q5, q6⟩ := location_exists (row := row) g2 fun i _ _ h => by rw [hrl]; exact h
    refine ⟨⟨e.source, la1, e.target.map Int.ofNat, la2, (e.value.map N.text).getD []⟩, ?_, ?_⟩
    · rw [readRow_ok]
      refine ⟨?_, q1, ?_, q4, ev⟩
      · rw [indexId_ok]
        refine ⟨k1, e0, ?_⟩
        rcases x1 with ⟨i, hi, ht⟩ | ⟨hi, rfl, _⟩
        · exact .inr ⟨(isCode_toCode ht).2.2, i, (isCode_toCode ht).2.1, hi⟩
        · exact .inl ⟨rfl, hi⟩
      · rw [indexId_ok]
        refine ⟨k2, e2, ?_⟩
        rcases x2 with ⟨i, hi, ht⟩ | ⟨hi, rfl, _⟩
        · exact .inr ⟨(isCode_toCode ht).2.2, i, (isCode_toCode ht).2.1, by rw [hi]; rfl⟩
        · exact .inl ⟨rfl, by rw [hi]; rfl⟩
    · refine ⟨rfl, q2, ?_, rfl, q5, ?_, ?_⟩
      · intro hs y hy
        rcases q3 y hy with h | ⟨i, _, hi, hiy⟩
        · exact h
        rcases x1 with ⟨j, hj, _⟩ | ⟨_, hk, hb⟩
        · rw [hs] at hj; cases hj
        · rcases i with _ | i
          · rw [e0] at hiy
            cases hiy
            exact hk
          · rw [hre, List.getElem?_cons_succ, List.getElem?_append_left (by simp at hi; omega)] at hiy
            exact hb y (List.mem_of_getElem? hiy)
      · intro hs y hy
        rcases q6 y hy with h | ⟨i, hi, hi', hiy⟩
        · exact h
        rcases x2 with ⟨j, hj, _⟩ | ⟨_, hk, hb⟩
        · rw [hs] at hj; cases hj
        · obtain ⟨j, rfl⟩ := Nat.exists_eq_add_of_le hi
          have hr2 : row = (k1 :: (ls1 ++ [(e.value.map N.text).getD []])) ++ k2 :: (ls2 ++ am) := by rw [hre]; simp
          rw [hr2, show c1.length + 2 = (k1 :: (ls1 ++ [(e.value.map N.text).getD []])).length by simp [n1],
            List.getElem?_append_right (by omega), Nat.add_sub_cancel_left] at hiy
          rcases List.mem_cons.1 (List.mem_of_getElem? hiy) with h | h
          · rw [h]; exact hk
          rcases List.mem_append.1 h with h | h
          · exact hb y h
          · exact hwr.blank (hw.blank e hel hs) y h
      · show N.value ((e.value.map N.text).getD []) = _
        rcases e.value with _ | q
        · exact N.value_blank
        · exact N.value_text q
  obtain ⟨lines, hlines, hback⟩ := hrd
  refine ⟨lines, ?_, hback⟩
  unfold readTable
  rw [hpos]
  exact bindE_ok.2 ⟨_, rfl, bindE_ok.2 ⟨l1, g1, bindE_ok.2 ⟨l2, g2, hlines⟩⟩⟩

end Toron.MappingCsv
