/-
Lemmas about writing and reading an index as a table (C66).
-/
import Verif.Spec.IndexCsv
import Verif.Lemmas.MappingCsv
import Verif.Lemmas.MappingRoundtrip
import Verif.Lemmas.Py
import Verif.Lemmas.Store.Inv2
import Verif.Props.StoreIndexLoad
import Verif.Lemmas.Distinct

namespace Toron.IndexCsv

open Toron.Selectors (PyStr)
open Toron.Space
open Toron.IndexCode (isCode toId toCode)
open Toron.MappingCsv (Table codePosition HasCode bindE_ok mapM_forall₂ isCode_toCode codePosition_exists codePosition_only
  codePosition_ok)

/-! ### Cells by column -/

theorem lookup_labels {cols names : List PyStr} (hnd : cols.Nodup) {labels : List PyStr} {ws : List Cell}
    (hl : labels.length = cols.length) :
    List.Forall₂ (fun c l => lookup c (cols ++ names) (labels.map .text ++ ws) = .ok (.text l)) cols labels := by
  induction cols generalizing labels with
  | nil =>
    rw [List.length_eq_zero_iff.1 hl]
    exact .nil
  | cons c cs ih =>
    rcases labels with _ | ⟨l, ls⟩
    · cases hl
    obtain ⟨hc, hcs⟩ := List.nodup_cons.1 hnd
    refine .cons (if_pos rfl) ?_
    refine (List.forall₂_iff_get.2 ⟨?_, ?_⟩)
    · exact (by simpa using hl.symm)
    · intro i h1 h2
      have := List.Forall₂.get (ih hcs (labels := ls) (by simpa using hl)) h1 h2
      have hne : c ≠ cs.get ⟨i, h1⟩ := fun he => hc (by rw [he]; exact List.get_mem _ _)
      show lookup _ (c :: (cs ++ names)) (.text l :: (ls.map .text ++ ws)) = _
      unfold lookup
      rw [if_neg hne]
      exact this

theorem lookup_row {h0 : PyStr} {c0 : Cell} {cols names : List PyStr} (hnd : cols.Nodup) (h : h0 ∉ cols)
    {labels : List PyStr} {ws : List Cell} (hl : labels.length = cols.length) :
    (cols.mapM fun c => lookup c (h0 :: (cols ++ names)) (c0 :: (labels.map .text ++ ws)) >>= Cell.label) = .ok labels := by
  rw [mapM_forall₂]
  have := lookup_labels (names := names) hnd (ws := ws) hl
  rw [List.forall₂_iff_get] at this ⊢
  refine ⟨this.1, fun i h1 h2 => ?_⟩
  have hne : h0 ≠ cols.get ⟨i, h1⟩ := fun he => h (by rw [he]; exact List.get_mem _ _)
  refine bindE_ok.2 ⟨.text (labels.get ⟨i, h2⟩), ?_, rfl⟩
  unfold lookup
  rw [if_neg hne]
  exact this.2 i h1 h2

theorem pick_true {f : PyStr → Bool} {names : List PyStr} (hf : ∀ n ∈ names, f n = true) {ws : List Cell}
    (hl : ws.length = names.length) : pick f names ws = .ok ws := by
  induction names generalizing ws with
  | nil => rw [List.length_eq_zero_iff.1 hl]; rfl
  | cons n ns ih =>
    rcases ws with _ | ⟨w, ws⟩
    · cases hl
    unfold pick
    refine bindE_ok.2 ⟨ws, ih (fun m hm => hf m (List.mem_cons_of_mem _ hm)) (by simpa using hl), ?_⟩
    rw [if_pos (hf n List.mem_cons_self)]

theorem pick_skip {f : PyStr → Bool} {cols names : List PyStr} (hf : ∀ n ∈ cols, f n = false) {a b : List Cell}
    (hl : a.length = cols.length) : pick f (cols ++ names) (a ++ b) = pick f names b := by
  induction cols generalizing a with
  | nil => rw [List.length_eq_zero_iff.1 hl]; rfl
  | cons n ns ih =>
    rcases a with _ | ⟨w, ws⟩
    · cases hl
    have := ih (fun m hm => hf m (List.mem_cons_of_mem _ hm)) (a := ws) (by simpa using hl)
    show pick f (n :: (ns ++ names)) (w :: (ws ++ b)) = _
    rw [pick, hf n List.mem_cons_self]
    show (pick f (ns ++ names) (ws ++ b) >>= fun rest => _) = _
    rw [this]
    cases hx : pick f names b <;> rfl

/-- The weight of a record as written. -/
def writtenWeight (s : Store) (i : Nat) (g : WGroup) : Option ℚ :=
  (s.weightOf g.id i).or (if i = 0 then some 0 else none)

theorem weightCell_weight (F : Floats) (s : Store) (i : Nat) (g : WGroup) :
    Cell.weight F (.text (weightCell F s i g)) = .ok (writtenWeight s i g) := by
  have key : ∀ q, Cell.weight F (.text (F.text q)) = .ok (some q) := by
    intro q
    show (if F.text q = [] then _ else _) = _
    rw [if_neg (F.text_ne q), F.parse_text]
  unfold weightCell writtenWeight
  rcases s.weightOf g.id i with _ | v
  · by_cases h : i = 0
    · rw [if_pos h, if_pos h]; exact key 0
    · rw [if_neg h, if_neg h]; rfl
  · exact key v

/-- The row given to `insert_index` for a written record. -/
def rowOf (s : Store) (i : Option Nat) (r : IndexRec) : IndexRow :=
  ⟨i, some r.labels, (sortedGroups s).map (writtenWeight s r.id)⟩

theorem readRow_written {F : Floats} {s : Store} (hi : IndexInv s) (hc : ColInv s)
    {groups : List PyStr} (hg : ∀ n, n ∈ groups ↔ n ∈ s.wgroups.map (·.name)) (hp : PlainGroups s) {h0 : PyStr} {c0 : Cell}
    (hh : h0 ∉ s.cols) (hh' : h0 ∉ groups) {r : IndexRec} (hr : r ∈ s.index) {i : Option Nat}
    (hid : readId (h0 :: (s.cols ++ (sortedGroups s).map (·.name)))
      (c0 :: (r.labels.map .text ++ (sortedGroups s).map fun g => .text (weightCell F s r.id g))) = .ok i) :
    readRow F s.cols groups true (h0 :: (s.cols ++ (sortedGroups s).map (·.name)))
      (c0 :: (r.labels.map .text ++ (sortedGroups s).map fun g => .text (weightCell F s r.id g))) =
      .ok (some (rowOf s i r)) := by
  have hnd : s.cols.Nodup := List.Nodup.of_map _ hc.cols
  unfold readRow
  rw [if_neg (by simp), if_pos rfl]
  refine bindE_ok.2 ⟨r.labels, lookup_row hnd hh (hi.lens r hr), ?_⟩
  rw [if_neg (hi.nonempty r hr)]
  refine bindE_ok.2 ⟨i, hid, bindE_ok.2 ⟨(sortedGroups s).map fun g => .text (weightCell F s r.id g), ?_,
    bindE_ok.2 ⟨(sortedGroups s).map (writtenWeight s r.id), ?_, rfl⟩⟩⟩
  · have h1 := pick_skip (f := fun h => decide (h ∈ groups)) (cols := h0 :: s.cols) (names := (sortedGroups s).map (·.name))
      (a := c0 :: r.labels.map .text) (b := (sortedGroups s).map fun g => .text (weightCell F s r.id g)) ?_ ?_
    · refine h1.trans (pick_true ?_ (by simp))
      intro n hn
      rw [decide_eq_true_eq, hg]
      obtain ⟨g, hg', rfl⟩ := List.mem_map.1 hn
      exact List.mem_map_of_mem ((mem_sortedBy _ _ _).1 hg')
    · intro n hn
      rw [decide_eq_false_iff_not]
      rcases List.mem_cons.1 hn with rfl | hn
      · exact hh'
      · rw [hg]
        intro h
        obtain ⟨g, hg', rfl⟩ := List.mem_map.1 h
        exact (hp g hg').1 hn
    · simp [hi.lens r hr]
  · rw [mapM_forall₂, List.forall₂_map_left_iff, List.forall₂_map_right_iff]
    exact List.forall₂_same.2 fun g _ => weightCell_weight F s r.id g

/-- The names of the groups as written. -/
def names (s : Store) : List PyStr := (sortedGroups s).map (·.name)

theorem mem_names {s : Store} {n : PyStr} : n ∈ names s ↔ n ∈ s.wgroups.map (·.name) := by
  unfold names
  simp only [List.mem_map, sortedGroups, mem_sortedBy]

/-- A written row after its code has been read. -/
def cells (F : Floats) (s : Store) (c0 : Cell) (r : IndexRec) : List Cell :=
  c0 :: (r.labels.map .text ++ (sortedGroups s).map fun g => .text (weightCell F s r.id g))

theorem readRows_written {F : Floats} {s : Store} (hi : IndexInv s) (hc : ColInv s) (hcols : s.cols ≠ [])
    {groups : List PyStr} (hg : ∀ n, n ∈ groups ↔ n ∈ s.wgroups.map (·.name)) (hp : PlainGroups s) {h0 : PyStr}
    (hh : h0 ∉ s.cols) (hh' : h0 ∉ groups) {recs : List IndexRec} (hr : ∀ r ∈ recs, r ∈ s.index) {c0 : IndexRec → Cell}
    {i : IndexRec → Option Nat}
    (hid : ∀ r ∈ recs, readId (h0 :: (s.cols ++ names s)) (cells F s (c0 r) r) = .ok (i r)) :
    readRows F s.cols groups (h0 :: (s.cols ++ names s)) (recs.map fun r => cells F s (c0 r) r) =
      .ok (names s, recs.map fun r => rowOf s (i r) r) := by
  have hl : ((h0 :: (s.cols ++ names s)).any fun h => decide (h ∈ s.cols)) = true := by
    obtain ⟨c, hc⟩ := List.exists_mem_of_ne_nil _ hcols
    exact List.any_eq_true.2 ⟨c, List.mem_cons_of_mem _ (List.mem_append_left _ hc), decide_eq_true hc⟩
  unfold readRows
  simp only [hl]
  rw [if_neg (fun h => h.2 fun c hc => List.mem_cons_of_mem _ (List.mem_append_left _ hc))]
  refine bindE_ok.2 ⟨recs.map fun r => some (rowOf s (i r) r), ?_, ?_⟩
  · rw [mapM_forall₂, List.forall₂_map_left_iff, List.forall₂_map_right_iff]
    exact List.forall₂_same.2 fun r hm => readRow_written hi hc hg hp hh hh' (hr r hm) (hid r hm)
  · congr 2
    · rw [List.filter_cons_of_neg (by simpa using hh'), List.filter_append]
      rw [List.filter_eq_nil_iff.2, List.filter_eq_self.2, List.nil_append]
      · intro n hn
        rw [decide_eq_true_eq, hg]
        exact mem_names.1 hn
      · intro n hn h
        rw [decide_eq_true_eq, hg] at h
        obtain ⟨g, hg', rfl⟩ := List.mem_map.1 h
        exact (hp g hg').1 hn
    · rw [List.filterMap_map]
      exact List.filterMap_eq_map (f := fun r => rowOf s (i r) r) ▸ rfl

/-! ### The written table -/

theorem writeRecords_ok {F : Floats} {uid : List Byte} {s : Store} {recs : List IndexRec} {t : Table}
    (h : writeRecords F uid s recs = .ok t) :
    t.header = codeHeader s.getDomain :: (s.cols ++ names s) ∧
    List.Forall₂ (fun r row => ∃ c, toCode r.id uid = .ok c ∧
      row = c :: (r.labels ++ (sortedGroups s).map (weightCell F s r.id))) recs t.rows := by
  obtain ⟨rows, h1, h2⟩ := bindE_ok.1 h
  cases h2
  refine ⟨rfl, ?_⟩
  rw [mapM_forall₂] at h1
  refine h1.imp fun r row h => ?_
  obtain ⟨c, hc, h⟩ := bindE_ok.1 h
  cases h
  exact ⟨c, hc, rfl⟩

theorem codePosition_clear {F : Floats} {uid : List Byte} {s : Store} {recs : List IndexRec} {t : Table}
    (h : writeRecords F uid s recs = .ok t) (hne : recs ≠ []) (hcl : Clear uid t) :
    codePosition uid (t.header :: t.rows.take 9) = .ok (some 0) := by
  obtain ⟨-, hrows⟩ := writeRecords_ok h
  have hrow : ∀ row ∈ t.rows, ∃ c cs, row = c :: cs ∧ isCode c uid = .ok true := by
    intro row hm
    obtain ⟨k, hk, he⟩ := List.mem_iff_getElem.1 hm
    have := (List.forall₂_iff_get.1 hrows).2 k (by rw [hrows.length_eq]; exact hk) hk
    obtain ⟨c, h1, h2⟩ := this
    exact ⟨c, _, he.symm.trans h2, (isCode_toCode h1).1⟩
  obtain ⟨r, hr⟩ := codePosition_exists (uid := uid) (rows := t.header :: t.rows.take 9) (by
    intro row hm c hc
    rcases List.mem_cons.1 hm with rfl | hm
    · exact ⟨_, hcl.1 c hc⟩
    · obtain ⟨c', cs, rfl, h'⟩ := hrow row (List.mem_of_mem_take hm)
      rcases List.mem_cons.1 hc with rfl | hc
      · exact ⟨_, h'⟩
      · exact ⟨_, hcl.2 _ hm c hc⟩)
  rw [hr, codePosition_only hr (p := 0)]
  · obtain ⟨row, rows, he⟩ := List.exists_cons_of_ne_nil (l := t.rows) (by
      intro h0
      rw [h0] at hrows
      cases hrows
      exact hne rfl)
    obtain ⟨c, cs, rfl, h'⟩ := hrow row (by rw [he]; exact List.mem_cons_self)
    refine ⟨c :: cs, List.mem_cons_of_mem _ ?_, c, rfl, h'⟩
    rw [he]
    exact List.mem_cons_self
  · rintro row hm q ⟨c, hq, hc⟩
    rcases List.mem_cons.1 hm with rfl | hm
    · rw [hcl.1 c (List.mem_of_getElem? hq)] at hc
      cases hc
    · obtain ⟨c', cs, rfl, h'⟩ := hrow row (List.mem_of_mem_take hm)
      cases q with
      | zero => rfl
      | succ q =>
        rw [hcl.2 _ hm c (List.mem_of_getElem? (i := q) hq)] at hc
        cases hc

theorem remap_clear {F : Floats} {uid : List Byte} {s : Store} {recs : List IndexRec} {t : Table}
    (h : writeRecords F uid s recs = .ok t) (hne : recs ≠ []) (hcl : Clear uid t) :
    remap uid t = .ok (idName :: (s.cols ++ names s), recs.map fun r => cells F s (.id r.id) r) := by
  obtain ⟨hh, hrows⟩ := writeRecords_ok h
  unfold remap
  rw [codePosition_clear h hne hcl]
  refine bindE_ok.2 ⟨some 0, rfl, bindE_ok.2 ⟨recs.map fun r => cells F s (.id r.id) r, ?_, ?_⟩⟩
  · rw [mapM_forall₂, List.forall₂_map_right_iff]
    refine hrows.flip.imp ?_
    rintro row r ⟨c, hc, rfl⟩
    obtain ⟨-, h2, h3⟩ := isCode_toCode hc
    show remapRow uid 0 _ = _
    unfold remapRow
    simp only [List.getElem?_cons_zero]
    rw [if_neg h3, h2]
    show Except.ok _ = _
    simp [cells]
  · rw [hh]; rfl

theorem readId_id {s : Store} {F : Floats} {r : IndexRec} :
    readId (idName :: (s.cols ++ names s)) (cells F s (.id r.id) r) = .ok (some r.id) := by
  unfold readId
  rw [if_pos List.mem_cons_self]
  have : lookup idName (idName :: (s.cols ++ names s)) (cells F s (.id r.id) r) = .ok (.id r.id) := by
    unfold lookup cells
    rw [if_pos rfl]
  rw [this]
  show (if ((r.id : Int) < 0) then _ else _) = _
  rw [if_neg (by omega)]
  rfl

theorem idName_notMem {s : Store} (hc : ColInv s) : idName ∉ s.cols := by
  intro h
  have h1 := hc.colsRes _ h
  exact h1 (by decide)

/-- What is loaded from a written table. -/
theorem loadIndex_written {F : Floats} {uid : List Byte} {s s' : Store} (hi : IndexInv s) (hc : ColInv s)
    (hcols : s.cols ≠ []) (hp : PlainGroups s) (hl : SameLayout s s') {recs : List IndexRec} (hr : ∀ r ∈ recs, r ∈ s.index)
    (hne : recs ≠ []) {t : Table} (h : writeRecords F uid s recs = .ok t) (hcl : Clear uid t) (pl pw : Policy) :
    loadIndex F uid pl pw t s' =
      step (.insertIndex none (names s) pl pw (recs.map fun r => rowOf s (some r.id) r)) s' := by
  have h1 := readRows_written (F := F) hi hc hcols hl.2 hp (h0 := idName) (idName_notMem hc) (by
      rw [hl.2]
      intro h
      obtain ⟨g, hg, he⟩ := List.mem_map.1 h
      exact (hp g hg).2 he) hr (c0 := fun r => .id r.id) (i := fun r => some r.id) fun r _ => readId_id
  have h2 : (do let x ← remap uid t; readRows F s'.cols (s'.wgroups.map WGroup.name) x.1 x.2) =
      .ok (names s, recs.map fun r => rowOf s (some r.id) r) := by
    rw [hl.1]
    exact bindE_ok.2 ⟨_, remap_clear h hne hcl, h1⟩
  unfold loadIndex
  rw [h2]

/-! ### Into another dataspace -/

theorem codeHeader_ne (d : PyStr) : codeHeader d ≠ idName := by
  intro h
  have h1 := congrArg List.getLast? h
  unfold codeHeader at h1
  rw [List.getLast?_append] at h1
  have h2 : codeName.getLast? = some 'e' := by decide
  have h3 : idName.getLast? = some 'd' := by decide
  rw [h2, h3] at h1
  exact absurd h1 (by simp)

theorem idName_header {s : Store} (hc : ColInv s) (hp : PlainGroups s) :
    idName ∉ codeHeader s.getDomain :: (s.cols ++ names s) := by
  intro hm
  rcases List.mem_cons.1 hm with hm | hm
  · exact codeHeader_ne _ hm.symm
  · rcases List.mem_append.1 hm with hm | hm
    · exact idName_notMem hc hm
    · obtain ⟨g, hg, he⟩ := List.mem_map.1 (mem_names.1 hm)
      exact (hp g hg).2 he

theorem text_cells (F : Floats) (s : Store) (c : PyStr) (r : IndexRec) :
    (c :: (r.labels ++ (sortedGroups s).map (weightCell F s r.id))).map Cell.text = cells F s (.text c) r := by
  simp [cells]

theorem toOption_getD {α : Type} {e : Except Err α} {c d : α} (h : e = .ok c) : e.toOption.getD d = c := by
  rw [h]; rfl

theorem rows_foreign {F : Floats} {uid : List Byte} {s : Store} {recs : List IndexRec} {rows : List (List PyStr)}
    (h : List.Forall₂ (fun r row => ∃ c, toCode r.id uid = .ok c ∧
      row = c :: (r.labels ++ (sortedGroups s).map (weightCell F s r.id))) recs rows) :
    rows.map (fun row => row.map Cell.text) =
      recs.map fun r => cells F s (.text ((toCode r.id uid).toOption.getD [])) r := by
  induction h with
  | nil => rfl
  | @cons r _ _ _ h1 _ ih =>
    obtain ⟨c, hc, rfl⟩ := h1
    have h2 : (toCode r.id uid).toOption.getD [] = c := toOption_getD hc
    have h3 := text_cells F s c r
    refine congrArg₂ List.cons (h3.trans ?_) ih
    exact congrArg (fun c => cells F s (.text c) r) h2.symm

theorem remap_foreign {F : Floats} {uid uid' : List Byte} {s : Store} (hc : ColInv s) (hp : PlainGroups s)
    {recs : List IndexRec} {t : Table} (h : writeRecords F uid s recs = .ok t) (hcl : Foreign uid' t) :
    remap uid' t = .ok (codeHeader s.getDomain :: (s.cols ++ names s),
      recs.map fun r => cells F s (.text ((toCode r.id uid).toOption.getD [])) r) := by
  obtain ⟨hh, hrows⟩ := writeRecords_ok h
  have hno : ∀ row ∈ t.header :: t.rows.take 9, ∀ c ∈ row, isCode c uid' = .ok false := by
    intro row hm
    rcases List.mem_cons.1 hm with rfl | hm
    · exact hcl.1
    · exact hcl.2 row hm
  obtain ⟨r, hr⟩ := codePosition_exists (uid := uid') (rows := t.header :: t.rows.take 9)
    fun row hm c hc => ⟨_, hno row hm c hc⟩
  have hnone : r = none := by
    cases r with
    | none => rfl
    | some p =>
      obtain ⟨row, hm, c, hq, hc⟩ := ((codePosition_ok hr p).1 rfl p).2 rfl
      rw [hno row hm c (List.mem_of_getElem? hq)] at hc
      cases hc
  subst hnone
  unfold remap
  rw [hr]
  refine bindE_ok.2 ⟨none, rfl, ?_⟩
  have hn := idName_header hc hp
  rw [← hh] at hn ⊢
  rw [← rows_foreign hrows]
  exact if_neg hn

theorem loadIndex_foreign {F : Floats} {uid uid' : List Byte} {s s' : Store} (hi : IndexInv s) (hc : ColInv s)
    (hcols : s.cols ≠ []) (hp : PlainGroups s) (hl : SameLayout s s') {recs : List IndexRec} (hr : ∀ r ∈ recs, r ∈ s.index)
    {t : Table} (h : writeRecords F uid s recs = .ok t) (hcl : Foreign uid' t)
    (hh : codeHeader s.getDomain ∉ s.cols) (hh' : ∀ g ∈ s.wgroups, g.name ≠ codeHeader s.getDomain) (pl pw : Policy) :
    loadIndex F uid' pl pw t s' =
      step (.insertIndex none (names s) pl pw (recs.map fun r => rowOf s none r)) s' := by
  have hg : codeHeader s.getDomain ∉ s.wgroups.map (·.name) := by
    intro h
    obtain ⟨g, hg, he⟩ := List.mem_map.1 h
    exact hh' g hg he
  have hid : ∀ r ∈ recs, readId (codeHeader s.getDomain :: (s.cols ++ names s))
      (cells F s (.text ((toCode r.id uid).toOption.getD [])) r) = .ok none := by
    intro r _
    unfold readId
    rw [if_neg (idName_header hc hp)]
  have h1 := readRows_written (F := F) hi hc hcols hl.2 hp (h0 := codeHeader s.getDomain) hh
    (fun h => hg ((hl.2 _).1 h)) hr hid
  have h2 : (do let x ← remap uid' t; readRows F s'.cols (s'.wgroups.map WGroup.name) x.1 x.2) =
      .ok (names s, recs.map fun r => rowOf s none r) := by
    rw [hl.1]
    exact bindE_ok.2 ⟨_, remap_foreign hc hp h hcl, h1⟩
  unfold loadIndex
  rw [h2]

/-! ### What the rows say -/

theorem filter_key {α β : Type} [DecidableEq β] {f : α → β} {l : List α} (hnd : (l.map f).Nodup) {a : α} (h : a ∈ l) :
    l.filter (fun x => decide (f x = f a)) = [a] := by
  induction l with
  | nil => exact (nomatch h)
  | cons b l ih =>
    obtain ⟨h1, h2⟩ := List.nodup_cons.1 hnd
    rcases List.mem_cons.1 h with rfl | h
    · rw [List.filter_cons_of_pos (by simp), List.filter_eq_nil_iff.2]
      intro x hx he
      exact h1 (by rw [← of_decide_eq_true he]; exact List.mem_map_of_mem hx)
    · rw [List.filter_cons_of_neg, ih h2 h]
      intro he
      exact h1 (by rw [of_decide_eq_true he]; exact List.mem_map_of_mem h)

theorem numbers_rowOf {s : Store} (hw : WeightInv s) {g : WGroup} (hg : g ∈ s.wgroups) (i : Option Nat) (r : IndexRec) :
    (rowOf s i r).numbers (names s) g.name = (writtenWeight s r.id g).toList := by
  unfold IndexRow.numbers rowOf names
  simp only
  rw [List.zip_map', List.filter_map, List.filterMap_map]
  have := filter_key (f := fun g : WGroup => g.name) (l := sortedGroups s)
    (((sortedBy_perm _ _).map _).nodup_iff.2 hw.names) ((mem_sortedBy _ _ _).2 hg)
  show List.filterMap _ (List.filter (fun x => decide (x.name = g.name)) (sortedGroups s)) = _
  rw [this]
  cases h : writtenWeight s r.id g <;> simp [h]

theorem rowOf_counts {s : Store} (hi : IndexInv s) {r : IndexRec} (hr : r ∈ s.index) (i : Option Nat) :
    (rowOf s i r).Counts := hi.nonempty r hr

/-- The rows with ids about a record. -/
theorem weightsGiven_ids {s s' : Store} (hi : IndexInv s) (hw : WeightInv s) {recs : List IndexRec}
    (hr : ∀ r ∈ recs, r ∈ s.index) (hnd : (recs.map (·.id)).Nodup) {g : WGroup} (hg : g ∈ s.wgroups) :
    (∀ r ∈ recs, s'.weightsGiven (names s) g.name (recs.map fun r => rowOf s (some r.id) r) r.id =
      (writtenWeight s r.id g).toList) ∧
    ∀ name i, i ∉ recs.map (·.id) → s'.weightsGiven (names s) name (recs.map fun r => rowOf s (some r.id) r) i = [] := by
  have key : ∀ i, (recs.map fun r => rowOf s (some r.id) r).filter
      (fun row => decide (row.Counts ∧ s'.About row i)) =
      (recs.filter fun r => decide (r.id = i)).map fun r => rowOf s (some r.id) r := by
    intro i
    rw [List.filter_map]
    congr 1
    apply List.filter_congr
    intro r hm
    rw [Function.comp_apply, decide_eq_decide]
    constructor
    · rintro ⟨-, h | h⟩
      · exact Option.some.inj h
      · exact (nomatch h.1)
    · rintro rfl
      exact ⟨rowOf_counts hi (hr r hm) _, .inl rfl⟩
  unfold Store.weightsGiven
  refine ⟨fun r hm => ?_, fun name i hn => ?_⟩
  · rw [key, filter_key (f := fun r : IndexRec => r.id) hnd hm]
    simp only [List.map_cons, List.map_nil, List.flatMap_cons, List.flatMap_nil, List.append_nil]
    exact numbers_rowOf hw hg _ r
  · rw [key, List.filter_eq_nil_iff.2]
    · rfl
    · intro r hm he
      exact hn (by rw [← of_decide_eq_true he]; exact List.mem_map_of_mem hm)

theorem labelsGiven_ids {s : Store} (hi : IndexInv s) {recs : List IndexRec}
    (hr : ∀ r ∈ recs, r ∈ s.index) (hnd : (recs.map (·.id)).Nodup) :
    (∀ r ∈ recs, labelsGiven (recs.map fun r => rowOf s (some r.id) r) r.id = [r.labels]) ∧
    ∀ i, i ∉ recs.map (·.id) → labelsGiven (recs.map fun r => rowOf s (some r.id) r) i = [] := by
  have key : ∀ i, (recs.map fun r => rowOf s (some r.id) r).filter
      (fun row => decide (row.Counts ∧ row.idv = some i)) =
      (recs.filter fun r => decide (r.id = i)).map fun r => rowOf s (some r.id) r := by
    intro i
    rw [List.filter_map]
    congr 1
    apply List.filter_congr
    intro r hm
    rw [Function.comp_apply, decide_eq_decide]
    exact ⟨fun h => Option.some.inj h.2, fun h => ⟨rowOf_counts hi (hr r hm) _, congrArg some h⟩⟩
  unfold labelsGiven
  refine ⟨fun r hm => ?_, fun i hn => ?_⟩
  · rw [key, filter_key (f := fun r : IndexRec => r.id) hnd hm]
    rfl
  · rw [key, List.filter_eq_nil_iff.2]
    · rfl
    · intro r hm he
      exact hn (by rw [← of_decide_eq_true he]; exact List.mem_map_of_mem hm)

/-- The rows without ids about a record. -/
theorem weightsGiven_labels {s s' : Store} (hi : IndexInv s) (hw : WeightInv s) (hi' : IndexInv s') {recs : List IndexRec}
    (hr : ∀ r ∈ recs, r ∈ s.index) (hnd : (recs.map (·.labels)).Nodup) {g : WGroup} (hg : g ∈ s.wgroups)
    {r r' : IndexRec} (hm : r ∈ recs) (hm' : r' ∈ s'.index) (he : r'.labels = r.labels) :
    s'.weightsGiven (names s) g.name (recs.map fun r => rowOf s none r) r'.id = (writtenWeight s r.id g).toList := by
  have key : (recs.map fun r => rowOf s none r).filter
      (fun row => decide (row.Counts ∧ s'.About row r'.id)) =
      (recs.filter fun x => decide (x.labels = r.labels)).map fun r => rowOf s none r := by
    rw [List.filter_map]
    congr 1
    apply List.filter_congr
    intro x hx
    rw [Function.comp_apply, decide_eq_decide]
    constructor
    · rintro ⟨-, h | ⟨-, h⟩⟩
      · exact (nomatch h)
      · have := List.inj_on_of_nodup_map hi'.idsNodup h hm' rfl
        rw [← he, ← this]
        rfl
    · intro h
      refine ⟨rowOf_counts hi (hr x hx) _, .inr ⟨rfl, ?_⟩⟩
      show (⟨r'.id, x.labels⟩ : IndexRec) ∈ _
      rw [h, ← he]
      exact hm'
  unfold Store.weightsGiven
  rw [key, filter_key (f := fun r : IndexRec => r.labels) hnd hm]
  simp only [List.map_cons, List.map_nil, List.flatMap_cons, List.flatMap_nil, List.append_nil]
  exact numbers_rowOf hw hg _ r

theorem numbers_length {s : Store} (hw : WeightInv s) (n : PyStr) (i : Option Nat) (r : IndexRec) :
    ((rowOf s i r).numbers (names s) n).length ≤ 1 := by
  by_cases h : n ∈ s.wgroups.map (·.name)
  · obtain ⟨g, hg, rfl⟩ := List.mem_map.1 h
    rw [numbers_rowOf hw hg]
    exact Option.length_toList_le
  · unfold IndexRow.numbers
    rw [List.filter_eq_nil_iff.2]
    · simp
    · intro x hx he
      exact h (by rw [← of_decide_eq_true he]; exact mem_names.1 (List.of_mem_zip hx).1)

theorem distinct_nodup {κ : Type} [DecidableEq κ] {l : List κ} (h : l.Nodup) : distinct l = l := by
  induction l with
  | nil => rfl
  | cons a l ih =>
    obtain ⟨h1, h2⟩ := List.nodup_cons.1 h
    have hf : l.filter (fun b => decide (b ≠ a)) = l := List.filter_eq_self.2 fun b hb =>
      decide_eq_true fun he => h1 (he ▸ hb)
    unfold distinct
    rw [ih h2, hf]

theorem newLabels_written {s s' : Store} (hi : IndexInv s) {recs : List IndexRec}
    (hr : ∀ r ∈ recs, r ∈ s.index) (hnd : (recs.map (·.labels)).Nodup) :
    s'.newLabels (recs.map fun r => rowOf s none r) =
      (recs.map (·.labels)).filter fun l => decide (l ∉ s'.index.map (·.labels)) := by
  unfold Store.newLabels
  have : ((recs.map fun r => rowOf s none r).filter fun row => decide (row.Counts ∧ row.idv = none ∧
      row.labels.getD [] ∉ s'.index.map (·.labels))).map (fun row => row.labels.getD []) =
      (recs.map (·.labels)).filter fun l => decide (l ∉ s'.index.map (·.labels)) := by
    rw [List.filter_map, List.map_map, List.filter_map]
    refine congrArg₂ _ rfl (List.filter_congr fun r hm => ?_)
    rw [Function.comp_apply, Function.comp_apply, decide_eq_decide]
    exact ⟨fun h => h.2.2, fun h => ⟨rowOf_counts hi (hr r hm) _, rfl, h⟩⟩
  rw [this]
  exact distinct_nodup (hnd.filter _)

theorem writtenWeight_nonneg {s : Store} (hw : WeightInv s) {i : Nat} {g : WGroup} {v : ℚ} (h : v ∈ writtenWeight s i g) :
    0 ≤ v := by
  unfold writtenWeight at h
  rw [Option.mem_def, Option.or_eq_some_iff] at h
  rcases h with h | ⟨-, h⟩
  · obtain ⟨w, hm, -, -, rfl⟩ := (weightOf_iff hw.pairs).1 h
    exact hw.nonneg w hm
  · split at h
    · cases h; exact le_refl _
    · cases h

end Toron.IndexCsv
