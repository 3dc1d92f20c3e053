/-
Lemmas about readers.
-/
import Verif.Lemmas.Store.LinkHash
import Verif.Lemmas.Store.Read
import Verif.Lemmas.SelectorsEq
import Verif.Spec.Reader
import Verif.Props.StoreProportions
import Verif.Lemmas.Minimal
import Verif.Props.StoreFingerprint

namespace Toron.Selectors

variable {κ : Type}

theorem matchedItems_mem {cm : CaseMap} {r : Row} {dict : List (κ × Option (List Sel))}
    {items : List (Specificity × κ)} (h : matchedItems cm r dict = .ok items) :
    ∀ x ∈ items, ∃ sels, (x.2, sels) ∈ dict := by
  induction dict generalizing items with
  | nil => cases h; simp
  | cons kv rest ih =>
    obtain ⟨k, sels⟩ := kv
    unfold matchedItems at h
    rcases hb : bestOf cm r none (sels.getD []) with e | b
    · rw [hb] at h; cases h
    rcases hm : matchedItems cm r rest with e | its
    · rw [hb, hm] at h; cases h
    rw [hb, hm] at h
    cases b with
    | none =>
      cases h
      intro x hx
      obtain ⟨s, hs⟩ := ih hm x hx
      exact ⟨s, List.mem_cons_of_mem _ hs⟩
    | some sp =>
      cases h
      intro x hx
      rcases List.mem_cons.1 hx with rfl | hx
      · exact ⟨sels, List.mem_cons_self⟩
      · obtain ⟨s, hs⟩ := ih hm x hx
        exact ⟨s, List.mem_cons_of_mem _ hs⟩

theorem ggus_mem {cm : CaseMap} {r : Row} {dict : List (κ × Option (List Sel))} {d res : κ}
    (h : getGreatestUniqueSpecificity cm r dict d = .ok res) : res = d ∨ ∃ sels, (res, sels) ∈ dict := by
  unfold getGreatestUniqueSpecificity at h
  rcases hm : matchedItems cm r dict with e | items
  · rw [hm] at h; cases h
  rw [hm] at h
  cases h
  rcases firstSingle_cases d (groupRuns (sortedBy (fun a b => specLe b.1 a.1) items)) with
    ⟨pre, x, post, h1, _, h3⟩ | ⟨_, h2⟩
  · right
    show ∃ sels, (firstSingle d (groupRuns (sortedBy (fun a b => specLe b.1 a.1) items)), sels) ∈ dict
    rw [h3]
    apply matchedItems_mem hm
    have : x ∈ (groupRuns (sortedBy (fun a b => specLe b.1 a.1) items)).flatten := by
      rw [h1]; simp
    rw [groupRuns_flatten] at this
    simpa using this
  · exact .inl h2

end Toron.Selectors

namespace Toron.Space

open Toron.Selectors (PyStr Sel CaseMap getGreatestUniqueSpecificity ggus_mem ggus_spec)

/-! ### Links -/

theorem listsIds_hash {s : Store} (h : Reachable s) : s.listsIds (s.indexHash.map Int.ofNat) := by
  obtain ⟨h1, h2⟩ := C23_fingerprint_current h
  refine ⟨?_, fun o => ?_⟩
  · rw [List.pairwise_map]
    exact h1.imp fun h => Int.ofNat_lt.2 h
  · rw [List.mem_map]
    constructor
    · rintro ⟨i, hi, rfl⟩; exact ⟨i, (h2 i).1 hi, rfl⟩
    · rintro ⟨i, hi, rfl⟩; exact ⟨i, (h2 i).2 hi, rfl⟩

theorem listsIds_unique {s : Store} {a b : List Int} (ha : s.listsIds a) (hb : s.listsIds b) : a = b := by
  have hp : a.Perm b := (List.perm_ext_iff_of_nodup (ha.1.imp fun h => ne_of_lt h)
    (hb.1.imp fun h => ne_of_lt h)).2 fun o => by rw [ha.2, hb.2]
  exact hp.eq_of_pairwise (fun a b _ _ h1 h2 => absurd h1 (not_lt_of_gt h2)) ha.1 hb.1

theorem findLinksByRef_mem {links : List Link} {ref : PyStr} {l : Link} (h : l ∈ findLinksByRef links ref) :
    l ∈ links := by
  unfold findLinksByRef at h
  dsimp only at h
  by_cases h1 : (links.filter fun l => l.other == ref) ≠ []
  · rw [if_pos h1] at h; exact List.mem_of_mem_filter h
  rw [if_neg h1] at h
  by_cases h2 : (links.filter fun l => l.hint == some ref) ++
      (if Selectors.endsWith ref toronExt then links.filter fun l => l.hint == some (ref.take (ref.length - 6))
       else links.filter fun l => l.hint == some (ref ++ toronExt)) ≠ []
  · rw [if_pos h2] at h
    rcases List.mem_append.1 h with h | h
    · exact List.mem_of_mem_filter h
    · split at h <;> exact List.mem_of_mem_filter h
  · rw [if_neg h2] at h
    by_cases h3 : 7 ≤ ref.length
    · rw [if_pos h3] at h; exact List.mem_of_mem_filter h
    · rw [if_neg h3] at h; cases h

theorem findLinksByRef_ids {links : List Link} {ref : PyStr} (hnd : (links.map (·.id)).Nodup) :
    ((findLinksByRef links ref).map (·.id)).Nodup := by
  have hl : links.Nodup := hnd.of_map
  refine (List.nodup_map_iff_inj_on ?_).2 fun x hx y hy h =>
    List.inj_on_of_nodup_map hnd (findLinksByRef_mem hx) (findLinksByRef_mem hy) h
  unfold findLinksByRef
  dsimp only
  by_cases h1 : (links.filter fun l => l.other == ref) ≠ []
  · rw [if_pos h1]; exact hl.filter _
  rw [if_neg h1]
  by_cases h2 : (links.filter fun l => l.hint == some ref) ++
      (if Selectors.endsWith ref toronExt then links.filter fun l => l.hint == some (ref.take (ref.length - 6))
       else links.filter fun l => l.hint == some (ref ++ toronExt)) ≠ []
  · rw [if_pos h2, List.nodup_append']
    refine ⟨hl.filter _, ?_, ?_⟩
    · split <;> exact hl.filter _
    · intro x hx hx'
      have he : x.hint = some ref := by simpa using (List.mem_filter.1 hx).2
      split at hx'
      · rename_i hends
        have he' : x.hint = some (ref.take (ref.length - 6)) := by simpa using (List.mem_filter.1 hx').2
        have hlen : 6 ≤ ref.length := by
          unfold Selectors.endsWith at hends
          rw [Bool.and_eq_true, decide_eq_true_eq] at hends
          exact hends.1
        have := congrArg List.length (Option.some.inj (he.symm.trans he'))
        rw [List.length_take] at this
        omega
      · have he' : x.hint = some (ref ++ toronExt) := by simpa using (List.mem_filter.1 hx').2
        have := congrArg List.length (Option.some.inj (he.symm.trans he'))
        rw [List.length_append] at this
        have h6 : toronExt.length = 6 := rfl
        omega
  · rw [if_neg h2]
    by_cases h3 : 7 ≤ ref.length
    · rw [if_pos h3]; exact hl.filter _
    · rw [if_neg h3]; exact List.nodup_nil

theorem currentLink_iff {src trg : Store} (h : Reachable src) {l : Link} :
    trg.currentLink src l ↔
      l ∈ (findLinksByRef trg.links src.uid).filter fun l => l.otherHash == some (src.indexHash.map Int.ofNat) := by
  rw [List.mem_filter, beq_iff_eq]
  refine and_congr_right fun _ => ⟨?_, fun he => ⟨_, he, listsIds_hash h⟩⟩
  rintro ⟨x, hx, hi⟩
  rw [hx, listsIds_unique hi (listsIds_hash h)]

/-- The list of candidates. -/
def Store.candidates (trg : Store) (src : Store) : List Link :=
  (findLinksByRef trg.links src.uid).filter fun l => l.otherHash == some (src.indexHash.map Int.ofNat)

theorem linkChooser_ok {trg src : Store} {d : Nat} {dict : List (Nat × Option (List Sel))}
    (h : trg.linkChooser src.uid (src.indexHash.map Int.ofNat) = .ok (d, dict)) :
    (∃ l ∈ trg.candidates src, l.isDefault = true ∧ l.id = d) ∧
    dict = ((trg.candidates src).filter fun l => l.complete && !l.selectors.isEmpty).map fun l =>
      (l.id, some l.selectors) := by
  unfold Store.linkChooser at h
  dsimp only at h
  split at h
  · cases h
  split at h
  · cases h
  rcases hf : ((findLinksByRef trg.links src.uid).filter fun l =>
    l.otherHash == some (src.indexHash.map Int.ofNat)).find? (fun l => l.isDefault) with _ | x
  · rw [hf] at h; cases h
  · rw [hf] at h
    cases h
    exact ⟨⟨x, List.mem_of_find?_eq_some hf, List.find?_some hf, rfl⟩, rfl⟩

theorem chosen_current {trg src : Store} {cm : CaseMap} {a : Attrs} {d res : Nat}
    {dict : List (Nat × Option (List Sel))}
    (h : trg.linkChooser src.uid (src.indexHash.map Int.ofNat) = .ok (d, dict))
    (hg : getGreatestUniqueSpecificity cm a dict d = .ok res) : ∃ l ∈ trg.candidates src, l.id = res := by
  obtain ⟨⟨l, hl, _, hid⟩, hd⟩ := linkChooser_ok h
  rcases ggus_mem hg with rfl | ⟨sels, hm⟩
  · exact ⟨l, hl, hid⟩
  · rw [hd, List.mem_map] at hm
    obtain ⟨x, hx, he⟩ := hm
    exact ⟨x, List.mem_of_mem_filter hx, congrArg Prod.fst he⟩

/-! ### Rows -/

theorem propSum_one {ms : List Mapping} {t : ℚ} (h : propSum (ms.map (·.prop)) = some t) :
    (∀ m ∈ ms, m.prop = some (m.prop.getD 0)) ∧ (ms.map fun m => m.prop.getD 0).sum = t := by
  unfold propSum at h
  split at h
  · cases h
  · rename_i hn
    have hp : ∀ m ∈ ms, m.prop = some (m.prop.getD 0) := by
      intro m hm
      rcases he : m.prop with _ | p
      · exact absurd (List.mem_map.2 ⟨m, hm, he⟩) hn
      · rfl
    refine ⟨hp, ?_⟩
    have : (ms.map (·.prop)).filterMap id = ms.map fun m => m.prop.getD 0 := by
      rw [List.filterMap_map, ← List.filterMap_eq_map]
      exact List.filterMap_congr fun m hm => hp m hm
    rw [this] at h
    exact Option.some.inj h

theorem scale_ok {v : ℚ} {ms : List Mapping} (hp : ∀ m ∈ ms, m.prop = some (m.prop.getD 0)) :
    flatMapE (scaleBy (some v)) ms = .ok (ms.map fun m => (m.index, v * m.prop.getD 0)) := by
  induction ms with
  | nil => rfl
  | cons m ms ih =>
    unfold flatMapE
    have h1 : scaleBy (some v) m = .ok [(m.index, v * m.prop.getD 0)] := by
      unfold scaleBy
      rw [hp m (by simp)]
      rfl
    rw [h1, ih fun x hx => hp x (by simp [hx])]
    rfl

theorem findMaps_eq (s : Store) (link : Nat) (o : Int) : s.findMaps link o = s.mapsFrom link o := by
  unfold Store.findMaps Store.mapsFrom
  apply List.filter_congr
  intro m _
  rw [Bool.eq_iff_iff]
  simp

theorem forall2_map_parts {f : Mapping → Nat × ℚ} {ms : List Mapping} {P : Mapping → ReaderRow → Prop} {a : Attrs}
    (h : ∀ m ∈ ms, P m ⟨(f m).1, a, some (f m).2⟩) :
    List.Forall₂ P ms ((ms.map f).map fun x => ⟨x.1, a, some x.2⟩) := by
  induction ms with
  | nil => exact .nil
  | cons m ms ih => exact .cons (h m (by simp)) (ih fun x hx => h x (by simp [hx]))

theorem translateRow_split {trg : Store} {link : Nat} {quantize : Bool} {row : ReaderRow} {parts : List ReaderRow}
    (hsum : row.index ≠ 0 → propSum ((trg.mapsFrom link row.index).map (·.prop)) = some 1)
    (hne : row.index ≠ 0 → trg.mapsFrom link row.index ≠ [])
    (hpos : ∀ m ∈ trg.maps, ∀ p, m.prop = some p → 0 ≤ p)
    (h : trg.translateRow link quantize row = .ok parts) :
    trg.splitBy link quantize row parts ∧ amount parts = row.value.getD 0 ∧ ∀ p ∈ parts, p.attrs = row.attrs := by
  unfold Store.translateRow at h
  unfold Store.splitBy
  by_cases h0 : row.index = 0
  · rw [if_pos h0] at h ⊢
    cases h
    exact ⟨rfl, by simp [amount], by simp⟩
  · rw [if_neg h0] at h ⊢
    obtain ⟨hp, hs⟩ := propSum_one (hsum h0)
    have hne := hne h0
    rw [findMaps_eq] at h
    set ms := trg.mapsFrom link row.index with hms
    rcases hv : row.value with _ | v
    · exfalso
      rw [hv] at h
      rcases hm : ms with _ | ⟨m, t⟩
      · exact hne hm
      · rw [hm] at h
        simp [flatMapE, scaleBy, bind, Except.bind] at h
    · rw [hv, scale_ok hp] at h
      simp only [bind, Except.bind] at h
      have htot : Spec.total (ms.map fun m => (m.index, v * m.prop.getD 0)) = v := by
        unfold Spec.total
        rw [List.map_map]
        have : ((fun x : Nat × ℚ => x.2) ∘ fun m : Mapping => (m.index, v * m.prop.getD 0)) =
            fun m : Mapping => v * m.prop.getD 0 := rfl
        rw [this, List.sum_map_mul_left, hs, mul_one]
      have ham : ∀ out : List (Nat × ℚ), amount (out.map fun x => ⟨x.1, row.attrs, some x.2⟩) = Spec.total out := by
        intro out
        unfold amount Spec.total
        rw [List.map_map]
        rfl
      by_cases hq : quantize = true
      · subst hq
        simp only [if_true] at h
        obtain ⟨sg, hsg, hsv⟩ : ∃ sg : ℚ, (sg = 1 ∨ sg = -1) ∧ 0 ≤ sg * v := by
          rcases le_total 0 v with hv | hv
          · exact ⟨1, .inl rfl, by linarith⟩
          · exact ⟨-1, .inr rfl, by linarith⟩
        obtain ⟨out, ho1, ho2, ⟨items', hperm, hall⟩, _⟩ := quantize_same_sign
          (ms.map fun m => (m.index, v * m.prop.getD 0)) sg hsg (by
            intro it hit
            obtain ⟨m, hm, rfl⟩ := List.mem_map.1 hit
            rw [← mul_assoc]
            exact mul_nonneg hsv (hpos m (List.mem_of_mem_filter hm) _ (hp m hm)))
        rw [htot] at ho1
        rw [ho1] at h
        cases h
        refine ⟨?_, by rw [ham, ho2, htot]; rfl, ?_⟩
        swap
        · intro p hp
          obtain ⟨x, _, rfl⟩ := List.mem_map.1 hp
          rfl
        have hperm : (fun a b => List.Perm a (List.map (fun m : Mapping => (m.index, v * m.prop.getD 0)) b)) items' ms :=
          hperm
        rw [← List.eq_map_comp_perm] at hperm
        obtain ⟨ms', rfl, hms'⟩ := hperm
        refine ⟨ms', hms', fun h => hne (by rw [h] at hms'; exact hms'.symm.eq_nil), ?_⟩
        rw [List.forall₂_map_left_iff] at hall
        rw [List.forall₂_map_right_iff]
        have hp' : ∀ m ∈ ms', m.prop = some (m.prop.getD 0) := fun m hm => hp m (hms'.mem_iff.1 hm)
        refine ((List.forall₂_and_left _ _).2 ⟨hp', hall⟩).imp ?_
        rintro m o ⟨h1, h2, h3⟩
        exact ⟨h2.symm, rfl, v, m.prop.getD 0, o.2, rfl, h1, rfl, by rw [if_pos rfl]; exact h3⟩
      · rw [if_neg hq] at h
        cases h
        refine ⟨⟨ms, .refl _, hne, ?_⟩, by rw [ham, htot]; rfl, by simp⟩
        refine forall2_map_parts (f := fun m => (m.index, v * m.prop.getD 0)) fun m hm => ?_
        exact ⟨rfl, rfl, v, m.prop.getD 0, v * m.prop.getD 0, rfl, hp m hm, rfl, by rw [if_neg hq]⟩

theorem translateRow_ok {trg : Store} {link : Nat} {quantize : Bool} {row : ReaderRow} {v : ℚ}
    (hv : row.value = some v)
    (hsum : row.index ≠ 0 → propSum ((trg.mapsFrom link row.index).map (·.prop)) = some 1)
    (hpos : ∀ m ∈ trg.maps, ∀ p, m.prop = some p → 0 ≤ p) :
    ∃ parts, trg.translateRow link quantize row = .ok parts := by
  unfold Store.translateRow
  by_cases h0 : row.index = 0
  · rw [if_pos h0]; exact ⟨_, rfl⟩
  rw [if_neg h0, findMaps_eq, hv]
  obtain ⟨hp, hs⟩ := propSum_one (hsum h0)
  rw [scale_ok hp]
  simp only [bind, Except.bind]
  by_cases hq : quantize = true
  · rw [if_pos hq]
    have htot : Spec.total ((trg.mapsFrom link row.index).map fun m => (m.index, v * m.prop.getD 0)) = v := by
      unfold Spec.total
      rw [List.map_map]
      have : ((fun x : Nat × ℚ => x.2) ∘ fun m : Mapping => (m.index, v * m.prop.getD 0)) =
          fun m : Mapping => v * m.prop.getD 0 := rfl
      rw [this, List.sum_map_mul_left, hs, mul_one]
    obtain ⟨sg, hsg, hsv⟩ : ∃ sg : ℚ, (sg = 1 ∨ sg = -1) ∧ 0 ≤ sg * v := by
      rcases le_total 0 v with hv | hv
      · exact ⟨1, .inl rfl, by linarith⟩
      · exact ⟨-1, .inr rfl, by linarith⟩
    obtain ⟨out, ho1, _⟩ := quantize_same_sign
      ((trg.mapsFrom link row.index).map fun m => (m.index, v * m.prop.getD 0)) sg hsg (by
        intro it hit
        obtain ⟨m, hm, rfl⟩ := List.mem_map.1 hit
        rw [← mul_assoc]
        exact mul_nonneg hsv (hpos m (List.mem_of_mem_filter hm) _ (hp m hm)))
    rw [htot] at ho1
    rw [ho1]
    exact ⟨_, rfl⟩
  · rw [if_neg hq]
    exact ⟨_, rfl⟩

theorem lookupLink_mem {links : List (Attrs × Nat)} {a : Attrs} {l : Nat} (h : lookupLink links a = some l) :
    (a, l) ∈ links := by
  unfold lookupLink at h
  rw [Option.map_eq_some_iff] at h
  obtain ⟨x, hx, rfl⟩ := h
  have := List.find?_some hx
  rw [beq_iff_eq] at this
  rw [← this]
  exact List.mem_of_find?_eq_some hx

/-- The parts of a successful translation. -/
theorem translate_parts {r r' : Reader} {cm : CaseMap} {src trg : Store} {quantize : Bool} (hr : r.Ok)
    (h : r.translate cm src trg quantize = .ok r') :
    ∃ (d : Nat) (dict : List (Nat × Option (List Sel))) (f : Attrs → Nat) (parts : List (ReaderRow × List ReaderRow)),
      trg.linkChooser src.uid (src.indexHash.map Int.ofNat) = .ok (d, dict) ∧
      (∀ a ∈ r.attrData, getGreatestUniqueSpecificity cm a dict d = .ok (f a)) ∧
      parts.map (·.1) = r.rows ∧ r' = { r with rows := parts.flatMap (·.2) } ∧
      ∀ p ∈ parts, trg.translateRow (f p.1.attrs) quantize p.1 = .ok p.2 := by
  unfold Reader.translate at h
  simp only [bind, Except.bind] at h
  rcases hc : trg.linkChooser src.uid (src.indexHash.map Int.ofNat) with e | ⟨d, dict⟩
  · rw [hc] at h; cases h
  rw [hc] at h
  simp only at h
  split at h
  · cases h
  rename_i links hl
  split at h
  · cases h
  rename_i rows hrows
  cases h
  obtain ⟨bs, hb1, rfl, hb3⟩ := flatMapE_ok hl
  obtain ⟨parts, hp1, rfl, hp3⟩ := flatMapE_ok hrows
  have hb : ∀ b ∈ bs, ∃ l, getGreatestUniqueSpecificity cm b.1 dict d = .ok l ∧ b.2 = [(b.1, l)] := by
    intro b hb
    have := hb3 b hb
    split at this
    · cases this
    rename_i l hg
    exact ⟨l, hg, (Except.ok.inj this).symm⟩
  have hall : ∀ x ∈ bs.flatMap (·.2), getGreatestUniqueSpecificity cm x.1 dict d = .ok x.2 := by
    intro x hx
    obtain ⟨b, hbm, hx⟩ := List.mem_flatMap.1 hx
    obtain ⟨l, hg, he⟩ := hb b hbm
    rw [he, List.mem_singleton] at hx
    rw [hx]
    exact hg
  have hlook : ∀ a ∈ r.attrData, ∃ l, lookupLink (bs.flatMap (·.2)) a = some l := by
    intro a ha
    rw [← hb1] at ha
    obtain ⟨b, hbm, rfl⟩ := List.mem_map.1 ha
    obtain ⟨l, hg, he⟩ := hb b hbm
    have hmem : (b.1, l) ∈ bs.flatMap (·.2) := List.mem_flatMap.2 ⟨b, hbm, by rw [he]; simp⟩
    unfold lookupLink
    rcases hf : (bs.flatMap (·.2)).find? (fun x => x.1 == b.1) with _ | x
    · exact absurd (List.find?_eq_none.1 hf _ hmem) (by simp)
    · exact ⟨x.2, by rw [hf]; rfl⟩
  refine ⟨d, dict, fun a => (lookupLink (bs.flatMap (·.2)) a).getD 0, parts, rfl, ?_, hp1, rfl, ?_⟩
  · intro a ha
    obtain ⟨l, hl⟩ := hlook a ha
    show _ = Except.ok ((lookupLink (bs.flatMap (·.2)) a).getD 0)
    rw [hl]
    exact hall (a, l) (lookupLink_mem hl)
  · intro p hp
    have hpr : p.1 ∈ r.rows := hp1 ▸ List.mem_map_of_mem hp
    obtain ⟨l, hl⟩ := hlook p.1.attrs (hr.known p.1 hpr)
    have := hp3 p hp
    show trg.translateRow ((lookupLink (bs.flatMap (·.2)) p.1.attrs).getD 0) quantize p.1 = .ok p.2
    rw [hl] at this ⊢
    exact this

/-! ### The tables of a reader -/

theorem canonAttrs_idem (a : Attrs) : canonAttrs (canonAttrs a) = canonAttrs a := by
  unfold canonAttrs
  apply sortedBy_of_pairwise
  refine sortedBy_pairwise _ ?_ ?_ _
  · intro a b c h1 h2
    simp only [decide_eq_true_eq] at *
    exact List.le_trans h1 h2
  · intro a b
    simpa using List.le_total _ _

theorem Reader.new_ok (data : List (Nat × Attrs × Option ℚ)) : (Reader.new data).Ok where
  known x hx := by
    obtain ⟨d, hd, rfl⟩ := List.mem_map.1 hx
    exact mem_distinct.2 (List.mem_map.2 ⟨d, hd, rfl⟩)
  once := nodup_distinct _
  sorted a ha := by
    obtain ⟨d, _, rfl⟩ := List.mem_map.1 (mem_distinct.1 ha)
    exact canonAttrs_idem _
  cols a ha kv hkv := by
    obtain ⟨d, hd, rfl⟩ := List.mem_map.1 (mem_distinct.1 ha)
    show kv.1 ∈ sortedBy _ _
    rw [mem_sortedBy, mem_distinct, List.mem_flatMap]
    exact ⟨d, hd, List.mem_map_of_mem ((sortedBy_perm _ _).mem_iff.1 hkv)⟩

theorem translateRow_attrs {trg : Store} {link : Nat} {quantize : Bool} {row : ReaderRow} {parts : List ReaderRow}
    (h : trg.translateRow link quantize row = .ok parts) : ∀ p ∈ parts, p.attrs = row.attrs := by
  unfold Store.translateRow at h
  by_cases h0 : row.index = 0
  · rw [if_pos h0] at h
    cases h
    simp
  · rw [if_neg h0] at h
    simp only [bind, Except.bind] at h
    split at h
    · cases h
    have : ∃ items : List (Nat × ℚ), parts = items.map fun x => ⟨x.1, row.attrs, some x.2⟩ := by
      split at h
      · split at h
        · split at h
          · cases h
          · cases h; exact ⟨_, rfl⟩
        · cases h
      · cases h; exact ⟨_, rfl⟩
    obtain ⟨items, rfl⟩ := this
    intro p hp
    obtain ⟨x, _, rfl⟩ := List.mem_map.1 hp
    rfl

theorem Reader.Ok.translate {r r' : Reader} {cm : CaseMap} {src trg : Store} {quantize : Bool} (hr : r.Ok)
    (h : r.translate cm src trg quantize = .ok r') : r'.Ok ∧ r'.attrData = r.attrData ∧ r'.keys = r.keys := by
  obtain ⟨d, dict, f, parts, _, _, hp1, rfl, hp3⟩ := translate_parts hr h
  refine ⟨⟨?_, hr.once, hr.sorted, hr.cols⟩, rfl, rfl⟩
  intro x hx
  obtain ⟨p, hp, hx⟩ := List.mem_flatMap.1 hx
  rw [translateRow_attrs (hp3 p hp) x hx]
  exact hr.known _ (hp1 ▸ List.mem_map_of_mem hp)

/-! ### Output -/

theorem flatMapE_single {α β γ : Type} {e : α → Except Err β} {F : α → β → γ} {l : List α} {out : List γ} :
    (flatMapE (fun k => do
      let y ← e k
      .ok [F k y]) l = .ok out) ↔ List.Forall₂ (fun k o => ∃ y, e k = .ok y ∧ o = F k y) l out := by
  induction l generalizing out with
  | nil =>
    unfold flatMapE
    rw [List.forall₂_nil_left_iff]
    constructor
    · intro h; cases h; rfl
    · rintro rfl; rfl
  | cons x xs ih =>
    unfold flatMapE
    rw [List.forall₂_cons_left_iff]
    simp only [bind, Except.bind] at ih ⊢
    rcases hx : e x with er | y
    · simp
    · simp only
      constructor
      · intro h
        split at h
        · cases h
        rename_i o ho
        cases h
        exact ⟨F x y, o, ⟨y, rfl, rfl⟩, ih.1 ho, rfl⟩
      · rintro ⟨b, u, ⟨y', he, rfl⟩, hu, rfl⟩
        cases he
        rw [ih.2 hu]
        rfl

theorem canonAttrs_congr {a b : Attrs} (hnd : (a.map (·.1)).Nodup) (h : a.Perm b) : canonAttrs a = canonAttrs b := by
  unfold canonAttrs
  refine sortedBy_congr _ ?_ ?_ _ _ h ?_
  · intro a b c h1 h2
    simp only [decide_eq_true_eq] at *
    exact List.le_trans h1 h2
  · intro a b
    simpa using List.le_total _ _
  · intro x hx y hy h1 h2
    simp only [decide_eq_true_eq] at h1 h2
    have he := List.le_antisymm h1 h2
    have : x.1 = y.1 := by
      have hinj : Function.Injective Char.toNat := by
        intro a b h
        exact Char.ext (UInt32.toNat_inj.1 h)
      exact hinj.list_map he
    exact List.inj_on_of_nodup_map hnd hx hy this

theorem attrGet_of_mem {a : Attrs} (hnd : (a.map (·.1)).Nodup) {k v : PyStr} : attrGet a k = some v ↔ (k, v) ∈ a := by
  unfold attrGet
  rw [Option.map_eq_some_iff]
  constructor
  · rintro ⟨x, hx, rfl⟩
    have := List.find?_some hx
    rw [beq_iff_eq] at this
    rw [← this]
    exact List.mem_of_find?_eq_some hx
  · intro h
    rcases hf : a.find? (fun kv => kv.1 == k) with _ | x
    · exact absurd (List.find?_eq_none.1 hf _ h) (by simp)
    · have h1 := List.find?_some hf
      rw [beq_iff_eq] at h1
      have := List.inj_on_of_nodup_map hnd (List.mem_of_find?_eq_some hf) h h1
      exact ⟨x, hf, by rw [this]⟩

theorem cells_inj {r : Reader} (hr : r.Ok) (hd : r.Dicts) {a b : Attrs} (ha : a ∈ r.attrData) (hb : b ∈ r.attrData)
    (h : r.keys.map (attrGet a) = r.keys.map (attrGet b)) : a = b := by
  have h := List.map_inj_left.1 h
  have sub : ∀ x y : Attrs, x ∈ r.attrData → y ∈ r.attrData → (∀ k ∈ r.keys, attrGet x k = attrGet y k) →
      ∀ kv ∈ x, kv ∈ y := by
    intro x y hx hy h kv hkv
    have := (attrGet_of_mem (hd x hx)).2 (show (kv.1, kv.2) ∈ x from hkv)
    rw [h kv.1 (hr.cols x hx kv hkv)] at this
    exact (attrGet_of_mem (hd y hy)).1 this
  have hp : a.Perm b := (List.perm_ext_iff_of_nodup (hd a ha).of_map (hd b hb).of_map).2 fun kv =>
    ⟨sub a b ha hb h kv, sub b a hb ha (fun k hk => (h k hk).symm) kv⟩
  rw [← hr.sorted a ha, ← hr.sorted b hb]
  exact canonAttrs_congr (hd a ha) hp

theorem sqlSum_getD (vs : List (Option ℚ)) : (sqlSum vs).getD 0 = (vs.map fun v => v.getD 0).sum := by
  have : (vs.filterMap id).sum = (vs.map fun v => v.getD 0).sum := by
    induction vs with
    | nil => rfl
    | cons v vs ih =>
      cases v with
      | none => simpa using ih
      | some x => simpa using ih
  rw [← this]
  unfold sqlSum
  split
  · rename_i h; rw [h]; rfl
  · rfl

theorem sqlSum_none {vs : List (Option ℚ)} : sqlSum vs = none ↔ ∀ v ∈ vs, v = none := by
  unfold sqlSum
  split
  · rename_i h
    rw [List.filterMap_eq_nil_iff] at h
    simpa using h
  · rename_i h
    simp only [reduceCtorEq, false_iff]
    intro hn
    exact h (List.filterMap_eq_nil_iff.2 (by simpa using hn))

theorem valuesAt_amount (r : Reader) (i : Nat) (a : Attrs) :
    (sqlSum (r.valuesAt (i, a))).getD 0 = r.amountAt i a := by
  rw [sqlSum_getD]
  unfold Reader.valuesAt Reader.amountAt amount
  rw [List.map_map]
  congr 2
  apply List.filter_congr
  intro x _
  rw [Bool.eq_iff_iff]
  simp

theorem labelsOf_ok {s : Store} (h : Reachable s) {i : Nat} {labels : List PyStr} :
    s.labelsOf i = .ok labels ↔ ∃ x ∈ s.index, x.id = i ∧ x.labels = labels := by
  unfold Store.labelsOf
  rcases hf : s.index.find? (fun r => r.id == i) with _ | x
  · rw [hf]
    simp only [reduceCtorEq, false_iff, not_exists, not_and]
    intro x hx he
    exact absurd (List.find?_eq_none.1 hf x hx) (by simpa using he)
  · have h1 := List.mem_of_find?_eq_some hf
    have h2 : x.id = i := by simpa using List.find?_some hf
    rw [hf]
    simp only [Except.ok.injEq]
    constructor
    · rintro rfl; exact ⟨x, h1, h2, rfl⟩
    · rintro ⟨y, hy, hi, rfl⟩
      rw [List.inj_on_of_nodup_map h.indexInv.idsNodup h1 hy (h2.trans hi.symm)]

/-- Adding up by groups. -/
theorem amount_groups {κ : Type} [DecidableEq κ] (key : ReaderRow → κ) (rows : List ReaderRow) {ks : List κ}
    (hnd : ks.Nodup) : (ks.map fun k => amount (rows.filter fun x => decide (key x = k))).sum =
      amount (rows.filter fun x => decide (key x ∈ ks)) := by
  induction ks with
  | nil => simp [amount]
  | cons k ks ih =>
    obtain ⟨h1, h2⟩ := List.nodup_cons.1 hnd
    rw [List.map_cons, List.sum_cons, ih h2]
    clear ih hnd h2
    unfold amount
    induction rows with
    | nil => simp
    | cons x xs ih =>
      by_cases hk : key x = k
      · have h2 : key x ∉ ks := hk ▸ h1
        have h3 : key x ∈ k :: ks := by rw [hk]; exact List.mem_cons_self
        rw [List.filter_cons_of_pos (by simpa using hk), List.filter_cons_of_neg (by simpa using h2),
          List.filter_cons_of_pos (by simpa using h3), List.map_cons, List.map_cons, List.sum_cons,
          List.sum_cons, ← ih, add_assoc]
      · by_cases hm : key x ∈ ks
        · have h3 : key x ∈ k :: ks := List.mem_cons_of_mem _ hm
          rw [List.filter_cons_of_neg (by simpa using hk), List.filter_cons_of_pos (by simpa using hm),
            List.filter_cons_of_pos (by simpa using h3), List.map_cons, List.map_cons, List.sum_cons,
            List.sum_cons, ← ih]
          ring
        · have h3 : key x ∉ k :: ks := by simp [hk, hm]
          rw [List.filter_cons_of_neg (by simpa using hk), List.filter_cons_of_neg (by simpa using hm),
            List.filter_cons_of_neg (by simpa using h3), ih]

/-! ### Pivoting -/

theorem pivotAttrs_eq (columns : List PyStr) (a : Attrs) : pivotAttrs columns a = valuesIn columns a := by
  unfold pivotAttrs valuesIn
  apply List.map_congr_left
  intro c _
  cases attrGet a c <;> rfl

theorem any_nonempty {c : List PyStr} : (c.any fun v => !v.isEmpty) = true ↔ ∃ v ∈ c, v ≠ [] := by
  simp [List.any_eq_true]

theorem mem_pivotTemp {r : Reader} {columns : List PyStr} {a : Attrs} {c : List PyStr} :
    (a, c) ∈ r.pivotTemp columns ↔ a ∈ r.attrData ∧ c = valuesIn columns a ∧ ∃ v ∈ c, v ≠ [] := by
  unfold Reader.pivotTemp
  rw [List.mem_filter, List.mem_map, any_nonempty]
  constructor
  · rintro ⟨⟨a', ha, he⟩, h⟩
    cases he
    exact ⟨ha, pivotAttrs_eq _ _, h⟩
  · rintro ⟨ha, rfl, h⟩
    exact ⟨⟨a, ha, by rw [pivotAttrs_eq]⟩, h⟩

theorem mem_pivotColumns {r : Reader} {columns c : List PyStr} :
    c ∈ r.pivotColumns columns ↔ ∃ a ∈ r.attrData, c = valuesIn columns a ∧ ∃ v ∈ c, v ≠ [] := by
  unfold Reader.pivotColumns
  rw [mem_distinct, List.mem_map]
  constructor
  · rintro ⟨⟨a, c⟩, h, rfl⟩
    obtain ⟨h1, h2⟩ := mem_pivotTemp.1 h
    exact ⟨a, h1, h2⟩
  · rintro ⟨a, h1, h2⟩
    exact ⟨(a, c), mem_pivotTemp.2 ⟨h1, h2⟩, rfl⟩

theorem mem_pivotIndexes {r : Reader} (hr : r.Ok) {columns : List PyStr} {i : Nat} :
    i ∈ r.pivotIndexes columns ↔ ∃ x ∈ r.rows, x.index = i ∧ hasPivot columns x := by
  unfold Reader.pivotIndexes
  rw [mem_sortedBy, mem_distinct, List.mem_map]
  refine exists_congr fun x => ?_
  rw [List.mem_filter, decide_eq_true_eq, List.mem_map]
  constructor
  · rintro ⟨⟨hx, ⟨a, c⟩, h, rfl⟩, rfl⟩
    obtain ⟨_, rfl, hv⟩ := mem_pivotTemp.1 h
    exact ⟨hx, rfl, hv⟩
  · rintro ⟨hx, rfl, hv⟩
    exact ⟨⟨hx, (x.attrs, _), mem_pivotTemp.2 ⟨hr.known x hx, rfl, hv⟩, rfl⟩, rfl⟩

theorem nodup_pivotIndexes (r : Reader) (columns : List PyStr) : (r.pivotIndexes columns).Nodup :=
  (sortedBy_perm _ _).nodup_iff.2 (nodup_distinct _)

/-- The attribute sets of a cell. -/
def Reader.cellAttrs (r : Reader) (columns : List PyStr) (i : Nat) (c : List PyStr) : List Attrs :=
  r.attrData.filter fun a => decide (valuesIn columns a = c) && r.rows.any fun y => y.index == i && y.attrs == a

theorem pivotParts_eq {r : Reader} {columns : List PyStr} {i : Nat} {c : List PyStr} (hc : ∃ v ∈ c, v ≠ []) :
    r.pivotParts columns i c = (r.cellAttrs columns i c).map fun a => sqlSum (r.valuesAt (i, a)) := by
  unfold Reader.pivotParts Reader.cellAttrs Reader.pivotTemp
  rw [List.filter_filter, List.filter_filter, List.filter_map, List.map_map]
  have : ∀ l : List Attrs, (l.filter ((fun x : Attrs × List PyStr => ((r.rows.any fun y => y.index == i && y.attrs == x.1) &&
      (x.2 == c && x.2.any fun v => !v.isEmpty))) ∘ fun a => (a, pivotAttrs columns a))) =
      l.filter fun a => decide (valuesIn columns a = c) && r.rows.any fun y => y.index == i && y.attrs == a := by
    intro l
    apply List.filter_congr
    intro a _
    rw [Bool.eq_iff_iff]
    simp only [Function.comp, pivotAttrs_eq, Bool.and_eq_true, beq_iff_eq, decide_eq_true_eq, any_nonempty]
    constructor
    · rintro ⟨h1, h2, _⟩; exact ⟨h2, h1⟩
    · rintro ⟨h1, h2⟩; exact ⟨h2, h1, h1 ▸ hc⟩
  simp only [Bool.and_assoc] at this ⊢
  rw [this]
  rfl

theorem cell_amount {r : Reader} (hr : r.Ok) {columns : List PyStr} {i : Nat} {c : List PyStr} :
    ((r.cellAttrs columns i c).map fun a => r.amountAt i a).sum = amount (r.cell columns i c) := by
  have h1 := amount_groups (fun x => x.attrs) (r.rows.filter fun x => decide (x.index = i))
    (ks := r.cellAttrs columns i c) (hr.once.filter _)
  have h2 : ∀ a, amount ((r.rows.filter fun x => decide (x.index = i)).filter fun x => decide (x.attrs = a)) =
      r.amountAt i a := by
    intro a
    unfold Reader.amountAt
    rw [List.filter_filter]
    congr 1
    apply List.filter_congr
    intro x _
    rw [Bool.eq_iff_iff]
    simp [and_comm]
  simp only [h2] at h1
  rw [h1]
  unfold Reader.cell
  rw [List.filter_filter]
  congr 1
  apply List.filter_congr
  intro x hx
  rw [Bool.eq_iff_iff]
  unfold Reader.cellAttrs
  simp only [List.mem_filter, Bool.and_eq_true, decide_eq_true_eq, List.any_eq_true, beq_iff_eq]
  constructor
  · rintro ⟨⟨_, h, _⟩, hi⟩; exact ⟨hi, h⟩
  · rintro ⟨hi, h⟩; exact ⟨⟨hr.known x hx, h, x, hx, hi, rfl⟩, hi⟩

theorem strip_eq {a b : List PyStr} (hl : a.length = b.length)
    (h : (a.reverse.dropWhile List.isEmpty).reverse = (b.reverse.dropWhile List.isEmpty).reverse) : a = b := by
  have h := List.reverse_injective h
  have key : ∀ l : List PyStr, l.takeWhile List.isEmpty = List.replicate (l.takeWhile List.isEmpty).length [] := by
    intro l
    rw [List.eq_replicate_iff]
    refine ⟨rfl, fun x hx => ?_⟩
    have := List.all_eq_true.1 List.all_takeWhile x hx
    simpa using this
  have ha := List.takeWhile_append_dropWhile (p := List.isEmpty) (l := a.reverse)
  have hb := List.takeWhile_append_dropWhile (p := List.isEmpty) (l := b.reverse)
  have hlen : (a.reverse.takeWhile List.isEmpty).length = (b.reverse.takeWhile List.isEmpty).length := by
    have h1 := congrArg List.length ha
    have h2 := congrArg List.length hb
    rw [List.length_append, List.length_reverse] at h1 h2
    rw [h] at h1
    omega
  apply List.reverse_injective
  rw [← ha, ← hb, h, key a.reverse, key b.reverse, hlen]

end Toron.Space
