/-
C122: what removing columns of a legacy node does to its links.
-/
import Verif.Spec.RemoveLinks
import Verif.Lemmas.Legacy.Merge
import Verif.Lemmas.Legacy.Relations
import Verif.Props.LegacyReadLink

namespace Toron.Legacy

open Toron.Selectors (PyStr)
open Toron.Space (IndexRec)

/-! ### Levels -/

theorem named_congr (cols : List PyStr) {f g : Nat → Bool} (h : ∀ i, f i = g i) : named cols f = named cols g := by
  rw [funext h]

theorem named_false (cols : List PyStr) : named cols (fun _ => false) = [] := by
  induction cols with
  | nil => rfl
  | cons c cs ih => exact ih

theorem named_compress (cols drop : List PyStr) (bits : List Bool) :
    named (cols.filter fun c => decide (c ∉ drop)) (Spec.bitAt (Text.compress bits (cols.map fun c => decide (c ∉ drop)))) =
      (named cols (Spec.bitAt bits)).filter fun c => decide (c ∉ drop) := by
  induction cols generalizing bits with
  | nil => rfl
  | cons c cs ih =>
    cases bits with
    | nil =>
      have hf : ∀ i, Spec.bitAt [] i = false := fun i => rfl
      rw [named_congr (c :: cs) hf, named_false]
      have : Text.compress ([] : List Bool) ((c :: cs).map fun c => decide (c ∉ drop)) = [] := rfl
      rw [this, named_congr _ hf, named_false]
      rfl
    | cons b bits =>
      have hs : ∀ (x : Bool) (l : List Bool), (fun i => Spec.bitAt (x :: l) (i + 1)) = Spec.bitAt l := fun x l => rfl
      have h0 : ∀ (x : Bool) (l : List Bool), Spec.bitAt (x :: l) 0 = x := fun x l => rfl
      by_cases hc : c ∈ drop
      · have e1 : (c :: cs).filter (fun c => decide (c ∉ drop)) = cs.filter (fun c => decide (c ∉ drop)) :=
          List.filter_cons_of_neg (by simpa using hc)
        have e2 : Text.compress (b :: bits) ((c :: cs).map fun c => decide (c ∉ drop)) =
            Text.compress bits (cs.map fun c => decide (c ∉ drop)) := by
          unfold Text.compress
          rw [List.map_cons, List.zip_cons_cons, List.filter_cons_of_neg (by simpa using hc)]
        rw [e1, e2, ih, named, h0, hs]
        cases b
        · rfl
        · rw [if_pos rfl, List.filter_cons_of_neg (by simpa using hc)]
      · have e1 : (c :: cs).filter (fun c => decide (c ∉ drop)) = c :: cs.filter (fun c => decide (c ∉ drop)) :=
          List.filter_cons_of_pos (by simpa using hc)
        have e2 : Text.compress (b :: bits) ((c :: cs).map fun c => decide (c ∉ drop)) =
            b :: Text.compress bits (cs.map fun c => decide (c ∉ drop)) := by
          unfold Text.compress
          rw [List.map_cons, List.zip_cons_cons, List.filter_cons_of_pos (by simpa using hc), List.map_cons]
        rw [e1, e2, named, h0, hs, ih, named, h0, hs]
        cases b
        · rfl
        · rw [if_pos rfl, if_pos rfl, List.filter_cons_of_pos (by simpa using hc)]

/-- **C122.** The new level that is computed for a level has exactly those of its columns that remain. -/
theorem C122_new_level (cols drop : List PyStr) (b : List Byte) :
    columnsOf (cols.filter fun c => decide (c ∉ drop)) (newLevel cols drop b) =
      (columnsOf cols b).filter fun c => decide (c ∉ drop) := by
  unfold columnsOf newLevel
  rw [named_congr cols (fun i => (bitAt_ofBytes b i).symm), ← named_compress]
  exact named_congr _ fun i => bitAt_toBits_ofBits _ i

/-- The level after the updates. -/
def levelAfter (f : List Byte → List Byte) (olds : List (List Byte)) (lv : Option (List Byte)) : Option (List Byte) :=
  olds.foldl (fun lv b => if lv = some b then some (f b) else lv) lv

theorem foldl_update (f : List Byte → List Byte) (olds : List (List Byte)) (rels : List Kept) :
    olds.foldl (fun rels b => updateLevel b (f b) rels) rels =
      rels.map fun r => { r with level := levelAfter f olds r.level } := by
  induction olds generalizing rels with
  | nil =>
    rw [List.foldl_nil]
    exact (List.map_id _).symm
  | cons b bs ih =>
    rw [List.foldl_cons, ih]
    unfold updateLevel
    rw [List.map_map]
    apply List.map_congr_left
    intro r _
    show (_ : Kept) = _
    by_cases h : r.level = some b
    · rw [Function.comp_apply, if_pos h]
      show { r with level := levelAfter f bs (some (f b)) } = _
      unfold levelAfter
      rw [List.foldl_cons, if_pos h]
    · rw [Function.comp_apply, if_neg h]
      unfold levelAfter
      rw [List.foldl_cons, if_neg h]

theorem levelAfter_none (f : List Byte → List Byte) (olds : List (List Byte)) : levelAfter f olds none = none := by
  induction olds with
  | nil => rfl
  | cons b bs ih =>
    unfold levelAfter
    rw [List.foldl_cons, if_neg (by simp)]
    exact ih

theorem levelAfter_not_mem (f : List Byte → List Byte) {olds : List (List Byte)} {b : List Byte} (h : b ∉ olds) :
    levelAfter f olds (some b) = some b := by
  induction olds with
  | nil => rfl
  | cons x xs ih =>
    unfold levelAfter
    rw [List.foldl_cons, if_neg (fun e => h (by rw [Option.some_inj.1 e]; exact List.mem_cons_self))]
    exact ih fun hx => h (List.mem_cons_of_mem _ hx)

theorem levelAfter_mem (f : List Byte → List Byte) {olds : List (List Byte)} (hn : olds.Nodup) (hc : NoChain f olds)
    {b : List Byte} (h : b ∈ olds) : levelAfter f (olds.filter fun b => f b ≠ b) (some b) = some (f b) := by
  induction olds with
  | nil => cases h
  | cons x xs ih =>
    rw [List.nodup_cons] at hn
    unfold NoChain at hc
    rw [List.pairwise_cons] at hc
    rcases List.mem_cons.1 h with e | hx
    · subst e
      by_cases hf : f b = b
      · rw [List.filter_cons_of_neg (by simpa using hf), levelAfter_not_mem, hf]
        intro hm
        exact hn.1 (List.mem_filter.1 hm).1
      · rw [List.filter_cons_of_pos (by simpa using hf)]
        unfold levelAfter
        rw [List.foldl_cons, if_pos rfl]
        refine levelAfter_not_mem f ?_
        intro hm
        obtain ⟨h1, h2⟩ := List.mem_filter.1 hm
        exact (of_decide_eq_true h2) (hc.1 _ h1 rfl)
    · have hne : b ≠ x := fun e => hn.1 (e ▸ hx)
      by_cases hf : f x = x
      · rw [List.filter_cons_of_neg (by simpa using hf)]
        exact ih hn.2 hc.2 hx
      · rw [List.filter_cons_of_pos (by simpa using hf)]
        unfold levelAfter
        rw [List.foldl_cons, if_neg (fun e => hne (Option.some_inj.1 e))]
        exact ih hn.2 hc.2 hx

theorem ofBits_bytes_eq_iff (s t : List Bool) :
    (BitFlags.ofBits s).bytes = (BitFlags.ofBits t).bytes ↔ ∀ i, Spec.bitAt s i = Spec.bitAt t i := by
  constructor
  · intro h i
    have : BitFlags.ofBits s = BitFlags.ofBits t := by
      show (⟨_⟩ : BitFlags) = ⟨_⟩
      exact congrArg BitFlags.mk h
    rw [← bitAt_toBits_ofBits s, ← bitAt_toBits_ofBits t, this]
  · intro h
    refine congrArg BitFlags.bytes (constructed_ext _ _ ?_ ?_ ?_)
    · exact .bits s
    · exact .bits t
    · intro i
      rw [bitAt_toBits_ofBits, bitAt_toBits_ofBits]
      exact h i

theorem representable_iff (cols drop : List PyStr) (structs : List (List Bool)) (b : List Byte) :
    Representable cols drop structs b ↔
      ¬ (newLevel cols drop b = [] ∨ newLevel cols drop b ∉ structs.map fun s => (BitFlags.ofBits s).bytes) := by
  rw [not_or, not_not]
  unfold Representable newLevel
  generalize Text.compress (BitFlags.ofBytes b).toBits (cols.map fun c => decide (c ∉ drop)) = t
  have hb : ∀ i, Spec.bitAt (bytesToBitstream (BitFlags.ofBits t).bytes) i = Spec.bitAt t i := bitAt_toBits_ofBits t
  refine and_congr ?_ ?_
  · have h0 : (BitFlags.ofBits ([] : List Bool)).bytes = [] := rfl
    rw [← h0, ofBits_bytes_eq_iff]
    constructor
    · rintro ⟨i, hi⟩ hall
      rw [hb, hall i] at hi
      cases hi
    · intro hall
      by_contra hc
      apply hall
      intro i
      have := fun hi => hc ⟨i, hi⟩
      rw [hb] at this
      exact Bool.eq_false_iff.2 this
  · rw [List.mem_map]
    constructor
    · rintro ⟨s, hs, h⟩
      exact ⟨s, hs, (ofBits_bytes_eq_iff _ _).2 fun i => (h i).trans (hb i)⟩
    · rintro ⟨s, hs, h⟩
      exact ⟨s, hs, fun i => ((ofBits_bytes_eq_iff _ _).1 h i).trans (hb i).symm⟩

theorem mem_unrepresentable {cols drop : List PyStr} {structs : List (List Bool)} {olds : List (List Byte)} {b : List Byte} :
    b ∈ unrepresentable cols drop structs olds ↔ b ∈ olds ∧ ¬ Representable cols drop structs b := by
  unfold unrepresentable
  rw [List.mem_filter, decide_eq_true_iff, representable_iff, not_not]

/-- **C122.** With `preserve_edges=True` the removal is refused if and only if the new structure does not have the level of a
relation. -/
theorem C122_refused {cols drop : List PyStr} {structs : List (List Bool)} (hs : ∃ s ∈ structs, ∀ i, Spec.bitAt s i = false)
    {olds : List (List Byte)} {rels : List Kept} (ho : LevelsOf rels olds) :
    (changeLevels cols drop structs true olds rels).toBool = false ↔
      ∃ r ∈ rels, ∃ b, r.level = some b ∧ ¬ Representable cols drop structs b := by
  have h0 : ¬ ([] ∉ structs.map fun s => (BitFlags.ofBits s).bytes) := by
    rw [not_not, List.mem_map]
    obtain ⟨s, hs, h⟩ := hs
    have : (BitFlags.ofBits ([] : List Bool)).bytes = [] := rfl
    exact ⟨s, hs, by rw [← this]; exact (ofBits_bytes_eq_iff _ _).2 h⟩
  unfold changeLevels
  rw [if_neg h0]
  constructor
  · intro h
    by_cases hu : unrepresentable cols drop structs olds = []
    · rw [if_neg (by simp [hu])] at h
      cases h
    · obtain ⟨b, hb⟩ := List.exists_mem_of_ne_nil _ hu
      obtain ⟨h1, h2⟩ := mem_unrepresentable.1 hb
      obtain ⟨r, hr, hl⟩ := (ho.2 b).1 h1
      exact ⟨r, hr, b, hl, h2⟩
  · rintro ⟨r, hr, b, hl, hb⟩
    have : b ∈ unrepresentable cols drop structs olds := mem_unrepresentable.2 ⟨(ho.2 b).2 ⟨r, hr, hl⟩, hb⟩
    rw [if_pos ⟨List.ne_nil_of_mem this, rfl⟩]
    rfl

/-- **C122.** Relations without a level are not touched. -/
theorem C122_exact {cols drop : List PyStr} {structs : List (List Bool)} {preserve : Bool} {olds : List (List Byte)}
    {rels out : List Kept} (h : changeLevels cols drop structs preserve olds rels = .ok out) :
    out.filter (fun r => r.level.isNone) = rels.filter fun r => r.level.isNone := by
  unfold changeLevels at h
  by_cases h0 : [] ∉ structs.map fun s => (BitFlags.ofBits s).bytes
  · rw [if_pos h0] at h; cases h
  rw [if_neg h0] at h
  by_cases h1 : unrepresentable cols drop structs olds ≠ [] ∧ preserve
  · rw [if_pos h1] at h; cases h
  rw [if_neg h1] at h
  cases h
  rw [foldl_update, List.filter_map]
  have hn : ∀ (l : List (List Byte)) (r : Kept), (levelAfter (newLevel cols drop) l r.level).isNone = r.level.isNone := by
    intro l r
    cases hr : r.level with
    | none => rw [levelAfter_none]
    | some b =>
      have : ∀ b, ∃ b', levelAfter (newLevel cols drop) l (some b) = some b' := by
        clear hr b
        induction l with
        | nil => exact fun b => ⟨b, rfl⟩
        | cons x xs ih =>
          intro b
          unfold levelAfter
          rw [List.foldl_cons]
          by_cases e : some b = some x
          · rw [if_pos e]; exact ih _
          · rw [if_neg e]; exact ih _
      obtain ⟨b', hb'⟩ := this b
      rw [hb']
      rfl
  generalize olds.filter (fun b => newLevel cols drop b ≠ b) = l
  have e1 : ((fun r : Kept => r.level.isNone) ∘ fun r : Kept => { r with level := levelAfter (newLevel cols drop) l r.level }) =
      fun r => r.level.isNone := funext fun r => hn _ r
  rw [e1, List.filter_filter]
  have e2 : rels.filter (fun r => r.level.isNone && !((unrepresentable cols drop structs olds).any fun b => r.level == some b)) =
      rels.filter fun r => r.level.isNone := by
    apply List.filter_congr
    intro r _
    cases hr : r.level with
    | some b => rfl
    | none =>
      rw [Bool.eq_iff_iff, Bool.and_eq_true]
      refine ⟨fun x => x.1, fun x => ⟨x, ?_⟩⟩
      rw [Bool.not_eq_true', List.any_eq_false]
      intro b _
      simp
  rw [e2]
  conv_rhs => rw [← List.map_id (rels.filter fun r => r.level.isNone)]
  apply List.map_congr_left
  intro r hr
  have hl : r.level = none := Option.isNone_iff_eq_none.1 (List.mem_filter.1 hr).2
  rw [hl, levelAfter_none]
  cases r
  rw [← hl]
  rfl

open Classical in
/-- **C122 (part).** If no level becomes one that is changed later, then relations whose level the new structure does not have
are gone, and every other relation is kept with the level that has its remaining columns. -/
theorem C122_levels_partial {cols drop : List PyStr} {structs : List (List Bool)} {preserve : Bool} {olds : List (List Byte)}
    {rels out : List Kept} (ho : LevelsOf rels olds) (hc : NoChain (newLevel cols drop) olds)
    (h : changeLevels cols drop structs preserve olds rels = .ok out) :
    out = (rels.filter fun r => decide (∀ b, r.level = some b → Representable cols drop structs b)).map fun r =>
      { r with level := r.level.map (newLevel cols drop) } := by
  unfold changeLevels at h
  by_cases h0 : [] ∉ structs.map fun s => (BitFlags.ofBits s).bytes
  · rw [if_pos h0] at h; cases h
  rw [if_neg h0] at h
  by_cases h1 : unrepresentable cols drop structs olds ≠ [] ∧ preserve
  · rw [if_pos h1] at h; cases h
  rw [if_neg h1] at h
  cases h
  rw [foldl_update]
  have e1 : rels.filter (fun r => !((unrepresentable cols drop structs olds).any fun b => r.level == some b)) =
      rels.filter fun r => decide (∀ b, r.level = some b → Representable cols drop structs b) := by
    apply List.filter_congr
    intro r hr
    rw [Bool.eq_iff_iff, decide_eq_true_iff, Bool.not_eq_true', List.any_eq_false]
    constructor
    · intro hall b hb
      by_contra hn
      exact hall b (mem_unrepresentable.2 ⟨(ho.2 b).2 ⟨r, hr, hb⟩, hn⟩) (beq_iff_eq.2 hb)
    · intro hall b hb he
      exact (mem_unrepresentable.1 hb).2 (hall b (beq_iff_eq.1 he))
  rw [e1]
  apply List.map_congr_left
  intro r hr
  have hr' := (List.mem_filter.1 hr).1
  cases hl : r.level with
  | none => rw [levelAfter_none]; rfl
  | some b => rw [levelAfter_mem _ ho.1 hc ((ho.2 b).2 ⟨r, hr', hl⟩)]; rfl

/-! ### Merging -/

/-- The relation that is inserted. -/
def blankRel (p : (Nat × Nat × Option (List Byte)) × Nat) : Kept := ⟨p.1.1, p.1.2.1, p.2, 0, p.1.2.2⟩

theorem relKey_blank (p : (Nat × Nat × Option (List Byte)) × Nat) : relKey (blankRel p) = p.1 := rfl

/-- What `UNIQUE` is about. -/
def place (x : Kept) : Nat × Nat × Nat := (x.link, x.source, x.index)

theorem insertRels_ok {ps : List ((Nat × Nat × Option (List Byte)) × Nat)} {rels out : List Kept}
    (h : insertRels ps rels = .ok out) (hn : (rels.map place).Nodup) :
    out = rels ++ ps.map blankRel ∧ (out.map place).Nodup := by
  induction ps generalizing rels with
  | nil =>
    cases h
    exact ⟨(List.append_nil _).symm, hn⟩
  | cons p ps ih =>
    unfold insertRels at h
    unfold insertRel at h
    by_cases hc : (rels.any fun r => r.link == p.1.1 && r.source == p.1.2.1 && r.index == p.2) = true
    · rw [if_pos hc] at h; cases h
    · rw [if_neg hc] at h
      have h' : insertRels ps (rels ++ [blankRel p]) = .ok out := h
      obtain ⟨h1, h2⟩ := ih h' (by
        rw [List.map_append, List.nodup_append]
        refine ⟨hn, by simp, ?_⟩
        intro a ha b hb e
        rw [List.map_singleton, List.mem_singleton] at hb
        subst hb
        obtain ⟨r, hr, rfl⟩ := List.mem_map.1 ha
        apply hc
        rw [List.any_eq_true]
        unfold place blankRel at e
        simp only [Prod.mk.injEq] at e
        exact ⟨r, hr, by simp [e]⟩)
      refine ⟨?_, h2⟩
      rw [h1, List.append_assoc]
      rfl

theorem mem_missingRels {m : List (Nat × Nat)} {rels : List Kept} {p : (Nat × Nat × Option (List Byte)) × Nat} :
    p ∈ missingRels m rels ↔ (∃ r ∈ rels, relKey r = p.1 ∧ m.lookup r.index = some p.2) ∧
      ∀ r ∈ rels, (m.lookup r.index).isSome = true → relKey r = p.1 → r.index ≠ p.2 := by
  unfold missingRels
  rw [List.mem_filter, mem_distinct, List.mem_filterMap]
  refine and_congr ?_ ?_
  · constructor
    · rintro ⟨r, hr, h⟩
      obtain ⟨t, ht, he⟩ := Option.map_eq_some_iff.1 h
      subst he
      exact ⟨r, hr, rfl, ht⟩
    · rintro ⟨r, hr, h1, h2⟩
      exact ⟨r, hr, by rw [h2, h1]; rfl⟩
  · rw [Bool.not_eq_true', List.any_eq_false]
    constructor
    · intro h r hr h1 h2 h3
      exact h r hr (by rw [h1, h2, h3]; simp)
    · intro h r hr hc
      rw [Bool.and_eq_true, Bool.and_eq_true, decide_eq_true_iff, beq_iff_eq] at hc
      exact h r hr hc.1.1 hc.1.2 hc.2

theorem mergedInto_eq (m : List (Nat × Nat)) (i : Nat) : mergedInto m i = rep m i := rfl

theorem not_goes {m : List (Nat × Nat)} (hm : RepOk m) {i : Nat} : (!(goes m i)) = true ↔ mergedInto m i = i := by
  rw [Bool.not_eq_true', Bool.eq_false_iff, Ne, hm.goes, not_not]
  rfl

theorem merged_cases {m : List (Nat × Nat)} (hm : RepOk m) {i t : Nat} (h : mergedInto m i = t) :
    m.lookup i = some t ∧ m.lookup t = some t ∨ m.lookup i = none ∧ i = t ∧ m.lookup t = none := by
  unfold mergedInto at h
  cases hl : m.lookup i with
  | none =>
    rw [hl] at h
    have : i = t := h
    subst this
    exact .inr ⟨rfl, rfl, hl⟩
  | some s =>
    rw [hl] at h
    have : s = t := h
    subst this
    exact .inl ⟨rfl, hm.idem hl⟩

/-- **C122.** When records are merged: a relation of a link from a record of the other node, with a level, to a record that is
kept is there if and only if there was one to a record that is merged into it; its value is the sum of these; and there are
no two between the same records. -/
theorem C122_merged {recs : List (Nat × List PyStr)} (hr : (recs.map (·.1)).Nodup) {rels out : List Kept}
    (hn : (rels.map place).Nodup) (h : mergeRels (oldToNew recs) rels = .ok out) :
    (out.map place).Nodup ∧
    (∀ link source level t, (∃ x ∈ out, x.link = link ∧ x.source = source ∧ x.level = level ∧ x.index = t) ↔
      ∃ r ∈ rels, r.link = link ∧ r.source = source ∧ r.level = level ∧ mergedInto (oldToNew recs) r.index = t) ∧
    ∀ x ∈ out, x.value = ((rels.filter fun r => decide (r.link = x.link ∧ r.source = x.source ∧ r.level = x.level ∧
      mergedInto (oldToNew recs) r.index = x.index)).map (·.value)).sum := by
  have hm : RepOk (oldToNew recs) := repOk hr
  generalize oldToNew recs = m at hm h
  unfold mergeRels at h
  cases hi : insertRels (missingRels m rels) rels with
  | error e => rw [hi] at h; cases h
  | ok rs =>
  rw [hi] at h
  obtain ⟨hrs, hnd⟩ := insertRels_ok hi hn
  have hout : out = (writeRelSums m rs).filter fun r => !(goes m r.index) := by cases h; rfl
  clear h hi
  have hplace : (writeRelSums m rs).map place = rs.map place := by
    unfold writeRelSums
    rw [List.map_map]
    apply List.map_congr_left
    intro r _
    rw [Function.comp_apply]
    split <;> rfl
  have hkey : ∀ (k : Nat × Nat × Option (List Byte)) (x : Kept), relKey x = k ↔ x.link = k.1 ∧ x.source = k.2.1 ∧ x.level = k.2.2 := by
    rintro ⟨a, b, c⟩ x
    unfold relKey
    rw [Prod.mk.injEq, Prod.mk.injEq]
  have hmem : ∀ x, x ∈ out ↔ ∃ y ∈ rs, mergedInto m y.index = y.index ∧ x =
      if rs.any fun x => decide (relKey x = relKey y) && m.lookup x.index == some y.index then
        { y with value := ((rs.filter fun x => decide (relKey x = relKey y) && m.lookup x.index == some y.index).map
          (·.value)).sum }
      else y := by
    intro x
    rw [hout, List.mem_filter]
    unfold writeRelSums
    rw [List.mem_map]
    constructor
    · rintro ⟨⟨y, hy, he⟩, hg⟩
      have hidx : x.index = y.index := by rw [← he]; split <;> rfl
      rw [not_goes hm, hidx] at hg
      exact ⟨y, hy, hg, he.symm⟩
    · rintro ⟨y, hy, hg, he⟩
      have hidx : x.index = y.index := by rw [he]; split <;> rfl
      exact ⟨⟨y, hy, he.symm⟩, by rw [not_goes hm, hidx]; exact hg⟩
  have hrsmem : ∀ y, y ∈ rs ↔ y ∈ rels ∨ ∃ p ∈ missingRels m rels, blankRel p = y := by
    intro y
    rw [hrs, List.mem_append, List.mem_map]
  refine ⟨?_, ?_, ?_⟩
  · rw [hout]
    exact (hplace ▸ hnd).sublist (List.filter_sublist.map _)
  · intro link source level t
    constructor
    · rintro ⟨x, hx, rfl, rfl, rfl, rfl⟩
      obtain ⟨y, hy, hg, he⟩ := (hmem x).1 hx
      have hx' : x.link = y.link ∧ x.source = y.source ∧ x.level = y.level ∧ x.index = y.index := by
        rw [he]; split <;> exact ⟨rfl, rfl, rfl, rfl⟩
      rw [hx'.1, hx'.2.1, hx'.2.2.1, hx'.2.2.2]
      rcases (hrsmem y).1 hy with hy | ⟨p, hp, rfl⟩
      · exact ⟨y, hy, rfl, rfl, rfl, hg⟩
      · obtain ⟨⟨r, hr, h1, h2⟩, -⟩ := mem_missingRels.1 hp
        obtain ⟨a, b, c⟩ := (hkey _ _).1 h1
        refine ⟨r, hr, a, b, c, ?_⟩
        unfold mergedInto
        rw [h2]
        rfl
    · rintro ⟨r, hr, rfl, rfl, rfl, hg⟩
      have : ∃ y ∈ rs, relKey y = relKey r ∧ y.index = t := by
        rcases merged_cases hm hg with ⟨h1, h2⟩ | ⟨h1, h2, h3⟩
        · by_cases hp : (relKey r, t) ∈ missingRels m rels
          · exact ⟨_, (hrsmem _).2 (.inr ⟨_, hp, rfl⟩), rfl, rfl⟩
          · rw [mem_missingRels, not_and] at hp
            have hp := hp ⟨r, hr, rfl, h1⟩
            push Not at hp
            obtain ⟨y, hy, _, e1, e2⟩ := hp
            exact ⟨y, (hrsmem _).2 (.inl hy), e1, e2⟩
        · exact ⟨r, (hrsmem _).2 (.inl hr), rfl, h2⟩
      obtain ⟨y, hy, hk, ht⟩ := this
      have hg' : mergedInto m y.index = y.index := by
        rw [ht]
        unfold mergedInto
        rcases merged_cases hm hg with ⟨h1, h2⟩ | ⟨h1, h2, h3⟩
        · rw [h2]; rfl
        · rw [h3]; rfl
      obtain ⟨a, b, c⟩ := (hkey _ _).1 hk
      refine ⟨_, (hmem _).2 ⟨y, hy, hg', rfl⟩, ?_⟩
      split <;> exact ⟨a, b, c, ht⟩
  · intro x hx
    obtain ⟨y, hy, hg, he⟩ := (hmem x).1 hx
    have hx' : x.link = y.link ∧ x.source = y.source ∧ x.level = y.level ∧ x.index = y.index := by
      rw [he]; split <;> exact ⟨rfl, rfl, rfl, rfl⟩
    rw [hx'.1, hx'.2.1, hx'.2.2.1, hx'.2.2.2]
    rcases merged_cases hm hg with ⟨h1, -⟩ | ⟨h1, -, -⟩
    · have hany : (rs.any fun x => decide (relKey x = relKey y) && m.lookup x.index == some y.index) = true := by
        rw [List.any_eq_true]
        exact ⟨y, hy, by rw [h1]; simp⟩
      rw [if_pos hany] at he
      rw [he]
      show ((rs.filter fun x => decide (relKey x = relKey y) && m.lookup x.index == some y.index).map (·.value)).sum = _
      rw [hrs, List.filter_append, List.map_append, List.sum_append]
      have hz : ((((missingRels m rels).map blankRel).filter fun x =>
          decide (relKey x = relKey y) && m.lookup x.index == some y.index).map (·.value)).sum = 0 := by
        apply List.sum_eq_zero
        intro v hv
        obtain ⟨z, hz, rfl⟩ := List.mem_map.1 hv
        obtain ⟨p, _, rfl⟩ := List.mem_map.1 (List.mem_filter.1 hz).1
        rfl
      rw [hz, add_zero]
      congr 2
      apply List.filter_congr
      intro r _
      rw [Bool.eq_iff_iff, Bool.and_eq_true, decide_eq_true_iff, decide_eq_true_iff, beq_iff_eq, hkey]
      have : m.lookup r.index = some y.index ↔ mergedInto m r.index = y.index := by
        constructor
        · intro e; unfold mergedInto; rw [e]; rfl
        · intro e
          rcases merged_cases hm e with ⟨a, -⟩ | ⟨a, b, c⟩
          · exact a
          · rw [c] at h1; cases h1
      rw [this]
      exact ⟨fun ⟨⟨a, b, c⟩, d⟩ => ⟨a, b, c, d⟩, fun ⟨a, b, c, d⟩ => ⟨⟨a, b, c⟩, d⟩⟩
    · have hany : ¬ (rs.any fun x => decide (relKey x = relKey y) && m.lookup x.index == some y.index) = true := by
        rw [List.any_eq_true]
        rintro ⟨z, _, hz⟩
        rw [Bool.and_eq_true, beq_iff_eq] at hz
        rw [hm.idem hz.2] at h1
        cases h1
      rw [if_neg hany] at he
      rw [he]
      have hyr : y ∈ rels := by
        rcases (hrsmem y).1 hy with hy | ⟨p, hp, rfl⟩
        · exact hy
        · obtain ⟨⟨r, _, _, h2⟩, -⟩ := mem_missingRels.1 hp
          rw [show (blankRel p).index = p.2 from rfl, hm.idem h2] at h1
          cases h1
      have hone : rels.filter (fun r => decide (r.link = y.link ∧ r.source = y.source ∧ r.level = y.level ∧
          mergedInto m r.index = y.index)) = [y] := by
        refine (List.filter_congr (q := fun r => decide (r = y)) ?_).trans ?_
        · intro r hr
          rw [Bool.eq_iff_iff, decide_eq_true_iff, decide_eq_true_iff]
          constructor
          · rintro ⟨a, b, c, d⟩
            refine List.inj_on_of_nodup_map hn hr hyr ?_
            unfold place
            rcases merged_cases hm d with ⟨-, e⟩ | ⟨-, e, -⟩
            · rw [e] at h1; cases h1
            · rw [a, b, e]
          · rintro rfl
            exact ⟨rfl, rfl, rfl, hg⟩
        · rw [List.filter_eq, List.count_eq_one_of_mem (List.Nodup.of_map _ hn) hyr]
          rfl
      rw [hone]
      simp

/-- **C122 (part).** The merging succeeds if all relations of a link from the same record to records that are merged with each
other have the same level. -/
theorem C122_merges_partial {recs : List (Nat × List PyStr)} (hr : (recs.map (·.1)).Nodup) {rels : List Kept}
    (hsame : ∀ r ∈ rels, ∀ r' ∈ rels, r.link = r'.link → r.source = r'.source →
      mergedInto (oldToNew recs) r.index = mergedInto (oldToNew recs) r'.index → r.level = r'.level) :
    ∃ out, mergeRels (oldToNew recs) rels = .ok out := by
  have hm : RepOk (oldToNew recs) := repOk hr
  generalize oldToNew recs = m at hm hsame
  have hins : ∀ (done ps : List ((Nat × Nat × Option (List Byte)) × Nat)), done ++ ps = missingRels m rels →
      ∃ out, insertRels ps (rels ++ done.map blankRel) = .ok out := by
    intro done ps
    induction ps generalizing done with
    | nil => exact fun _ => ⟨_, rfl⟩
    | cons p ps ih =>
      intro he
      have hp : p ∈ missingRels m rels := by rw [← he]; simp
      obtain ⟨⟨r0, hr0, k0, l0⟩, hno⟩ := mem_missingRels.1 hp
      have hnd : (missingRels m rels).Nodup := (nodup_distinct _).filter _
      have m0 : mergedInto m r0.index = p.2 := by unfold mergedInto; rw [l0]; rfl
      have hc : ¬ ((rels ++ done.map blankRel).any fun r => r.link == p.1.1 && r.source == p.1.2.1 && r.index == p.2) = true := by
        rw [List.any_eq_true]
        rintro ⟨r, hr, h⟩
        rw [Bool.and_eq_true, Bool.and_eq_true, beq_iff_eq, beq_iff_eq, beq_iff_eq] at h
        obtain ⟨⟨h1, h2⟩, h3⟩ := h
        have hk0 : r0.link = p.1.1 ∧ r0.source = p.1.2.1 ∧ r0.level = p.1.2.2 := by
          rw [← k0]; exact ⟨rfl, rfl, rfl⟩
        rcases List.mem_append.1 hr with hr | hr
        · have hlt : m.lookup r.index = some r.index := by rw [h3]; exact hm.idem l0
          have hlev := hsame r hr r0 hr0 (h1.trans hk0.1.symm) (h2.trans hk0.2.1.symm) (by
            rw [m0]
            unfold mergedInto
            rw [hlt]
            exact h3)
          refine hno r hr (by rw [hlt]; rfl) ?_ h3
          unfold relKey
          rw [h1, h2, hlev, hk0.2.2]
        · obtain ⟨q, hq, rfl⟩ := List.mem_map.1 hr
          have hqm : q ∈ missingRels m rels := by rw [← he]; simp [hq]
          obtain ⟨⟨r1, hr1, k1, l1⟩, -⟩ := mem_missingRels.1 hqm
          have hk1 : r1.link = q.1.1 ∧ r1.source = q.1.2.1 ∧ r1.level = q.1.2.2 := by
            rw [← k1]; exact ⟨rfl, rfl, rfl⟩
          have h1' : q.1.1 = p.1.1 := h1
          have h2' : q.1.2.1 = p.1.2.1 := h2
          have h3' : q.2 = p.2 := h3
          have hlev := hsame r1 hr1 r0 hr0 (by rw [hk1.1, hk0.1, h1']) (by rw [hk1.2.1, hk0.2.1, h2']) (by
            rw [m0]
            unfold mergedInto
            rw [l1]
            exact h3')
          have hqp : q = p := by
            obtain ⟨⟨a, b, c⟩, d⟩ := q
            obtain ⟨⟨a', b', c'⟩, d'⟩ := p
            rw [hk1.2.2, hk0.2.2] at hlev
            simp only at h1' h2' h3' hlev
            rw [h1', h2', h3', hlev]
          subst hqp
          rw [← he, List.nodup_append] at hnd
          exact hnd.2.2 _ hq _ List.mem_cons_self rfl
      unfold insertRels insertRel
      rw [if_neg hc]
      have := ih (done ++ [p]) (by rw [List.append_assoc]; exact he)
      rw [List.map_append, ← List.append_assoc] at this
      exact this
  obtain ⟨out, ho⟩ := hins [] (missingRels m rels) rfl
  rw [List.map_nil, List.append_nil] at ho
  unfold mergeRels
  rw [ho]
  exact ⟨_, rfl⟩

/-! ### What goes wrong -/

/-- Three columns; a link in which one row was given with the third column only, and the next with the second only. -/
def chainCols : List PyStr := [['a'], ['b'], ['c']]
def chainRels : List Kept := [⟨1, 7, 1, 10, some [0x20#8]⟩, ⟨1, 8, 2, 5, some [0x40#8]⟩]
def chainStructs : List (List Bool) := [[false, false], [true, false], [false, true], [true, true]]

/-- **C122 (violated).** The first column is removed. Both levels could be kept, and `preserve_edges=True` was asked for; but
the relation that was given with the column `c` now has the level of the column `b`: it is changed twice. -/
theorem C122_violated_chain : LevelsOf chainRels [[0x20#8], [0x40#8]] ∧
    columnsOf chainCols [0x20#8] = [['c']] ∧
    (changeLevels chainCols [['a']] chainStructs true [[0x20#8], [0x40#8]] chainRels).toOption =
      some [⟨1, 7, 1, 10, some [0x80#8]⟩, ⟨1, 8, 2, 5, some [0x80#8]⟩] ∧
    columnsOf [['b'], ['c']] [0x80#8] = [['b']] ∧
    ⟨some 7, some 10, [some ['x'], none]⟩ ∈ reconstructed [⟨1, [['x'], ['y']]⟩, ⟨2, [['x'], ['z']]⟩]
      [⟨1, 7, 1, 10, some [0x80#8]⟩, ⟨1, 8, 2, 5, some [0x80#8]⟩] := by
  refine ⟨⟨by decide, fun b => ?_⟩, by decide +kernel, by decide +kernel, by decide +kernel, by decide +kernel⟩
  unfold chainRels
  simp [eq_comm]

/-- **C122 (violated).** A record of the other node is mapped to a record exactly and to another one as a part of a row that
left labels out. When these two records are merged, the removal fails with an error of the database. -/
theorem C122_violated_mixed :
    mergeRels (oldToNew [(1, [['x']]), (2, [['x']])]) [⟨1, 7, 1, 10, none⟩, ⟨1, 7, 2, 5, some [0x80#8]⟩] =
      .error (.integrityError "relation: UNIQUE") := by
  have h : insertRels (missingRels (oldToNew [(1, [['x']]), (2, [['x']])]) [⟨1, 7, 1, 10, none⟩, ⟨1, 7, 2, 5, some [0x80#8]⟩])
      [⟨1, 7, 1, 10, none⟩, ⟨1, 7, 2, 5, some [0x80#8]⟩] = .error (.integrityError "relation: UNIQUE") := by
    have : missingRels (oldToNew [(1, [['x']]), (2, [['x']])]) [⟨1, 7, 1, 10, none⟩, ⟨1, 7, 2, 5, some [0x80#8]⟩] =
        [((1, 7, some [0x80#8]), 1)] := by decide +kernel
    rw [this]
    rfl
  unfold mergeRels
  rw [h]

/-- The conditions of the theorems on levels are met: in the other order nothing is changed twice. -/
example : NoChain (newLevel chainCols [['a']]) [[0x40#8], [0x20#8]] ∧
    (changeLevels chainCols [['a']] chainStructs true [[0x40#8], [0x20#8]] chainRels).toOption =
      some [⟨1, 7, 1, 10, some [0x40#8]⟩, ⟨1, 8, 2, 5, some [0x80#8]⟩] := by
  refine ⟨?_, by decide +kernel⟩
  have h1 : newLevel chainCols [['a']] [0x40#8] = [0x80#8] := by decide +kernel
  unfold NoChain
  rw [List.pairwise_cons]
  refine ⟨?_, List.pairwise_singleton _ _⟩
  intro b hb e
  rw [List.mem_singleton] at hb
  subst hb
  rw [h1] at e
  exact absurd e (by decide)

example : ∃ s ∈ chainStructs, ∀ i, Spec.bitAt s i = false := by
  refine ⟨[false, false], by decide, ?_⟩
  intro i
  match i with
  | 0 => rfl
  | 1 => rfl
  | i + 2 => rfl

/-- Two of three records are merged. -/
example : (mergeRels (oldToNew [(1, [['x']]), (2, [['x']]), (3, [['y']])])
    [⟨1, 7, 2, 10, none⟩, ⟨1, 8, 1, 5, none⟩, ⟨1, 8, 2, 6, none⟩, ⟨1, 8, 3, 1, none⟩]).toOption =
      some [⟨1, 8, 1, 11, none⟩, ⟨1, 8, 3, 1, none⟩, ⟨1, 7, 1, 10, none⟩] := by decide +kernel

end Toron.Legacy
