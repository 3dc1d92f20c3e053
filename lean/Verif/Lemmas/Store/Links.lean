/-
The exact effect of the link operations.
-/
import Verif.Lemmas.Store.Exact

set_option linter.unusedSimpArgs false

namespace Toron.Space

open Toron.Selectors (PyStr Sel)

theorem getLinksByRef_sub {links found : List Link} {ref : PyStr}
    (h : getLinksByRef links ref = .ok found) : ∀ l ∈ found, l ∈ links := by
  unfold getLinksByRef at h
  by_cases hr : ref = []
  · rw [if_pos hr] at h; cases h
  rw [if_neg hr] at h
  dsimp only at h
  by_cases he : (links.filter fun l => l.other == ref) ≠ []
  · rw [if_pos he] at h
    cases h
    exact fun l hl => List.mem_of_mem_filter hl
  rw [if_neg he] at h
  generalize hb : (if Selectors.endsWith ref toronExt = true then links.filter fun l => l.hint == some ref
    else (links.filter fun l => l.hint == some ref) ++
      links.filter fun l => l.hint == some (ref ++ toronExt)) = bh at h
  have hbh : ∀ l ∈ bh, l ∈ links := by
    subst hb
    intro l hl
    split at hl
    · exact List.mem_of_mem_filter hl
    · rcases List.mem_append.1 hl with hl | hl <;> exact List.mem_of_mem_filter hl
  generalize hf : (if bh = [] ∧ 7 ≤ ref.length then links.filter fun l => Selectors.startsWith l.other ref else bh) =
    fd at h
  have hfd : ∀ l ∈ fd, l ∈ links := by
    subst hf
    intro l hl
    split at hl
    · exact List.mem_of_mem_filter hl
    · exact hbh l hl
  by_cases h1 : (distinct (fd.map (·.other))).length > 1
  · rw [if_pos h1] at h; cases h
  rw [if_neg h1] at h
  by_cases h2 : fd = []
  · rw [if_pos h2] at h; cases h
  rw [if_neg h2] at h
  cases h
  exact hfd

theorem getLink_mem {links : List Link} {ref : PyStr} {name : Option PyStr} {b : Bool} {l : Link}
    (h : getLink links ref name b = .ok l) : l ∈ links := by
  unfold getLink at h
  simp only [Bind.bind, Except.bind] at h
  split at h
  · cases h
  · rename_i found hf
    have hsub := getLinksByRef_sub hf
    split at h
    · split at h
      · rename_i hfind; cases h; exact hsub _ (List.mem_of_find?_eq_some hfind)
      · cases h
    · split at h
      · cases h; exact hsub _ (by simp)
      · split at h
        · cases h
        · split at h
          · rename_i hfind; cases h; exact hsub _ (List.mem_of_find?_eq_some hfind)
          · cases h

theorem find_of_nodup {α κ : Type} [BEq κ] [LawfulBEq κ] {key : α → κ} {l : List α} (hnd : (l.map key).Nodup) {x : α}
    (hx : x ∈ l) : l.find? (fun y => key y == key x) = some x := by
  rw [List.find?_eq_some_iff_append]
  obtain ⟨as, bs, rfl⟩ := List.append_of_mem hx
  refine ⟨by simp, as, bs, rfl, fun a ha => ?_⟩
  simp only [Bool.not_eq_true', beq_eq_false_iff_ne]
  intro he
  rw [List.map_append, List.map_cons] at hnd
  have := (List.nodup_append'.1 hnd).2.2
  exact this (List.mem_map_of_mem (f := key) ha) (by rw [he]; simp)

theorem dropWeightGroup_ok {name : PyStr} {g : WGroup} {s s' : Store}
    (hnd : (s.wgroups.map (·.name)).Nodup) (hg : g ∈ s.wgroups) (hn : g.name = name)
    (h : dropWeightGroup name s = .ok ((), s')) :
    s'.wgroups = s.wgroups.filter (fun x => x.id != g.id) ∧
      s'.weights = if s.fk then s.weights.filter (fun w => w.group != g.id) else s.weights := by
  unfold dropWeightGroup at h
  rw [bind_ok] at h
  obtain ⟨_, _, he, h⟩ := h
  rw [get_ok] at he
  cases he
  have hfind : s.findWGroup name = some g := by
    subst hn
    exact find_of_nodup (key := fun g : WGroup => g.name) hnd hg
  simp only [hfind] at h
  rw [bind_ok] at h
  obtain ⟨_, t, ht, h⟩ := h
  have ht' := (Prod.mk.inj (modify_ok.1 ht)).2
  rw [bind_ok] at h
  obtain ⟨_, _, he, h⟩ := h
  rw [get_ok] at he
  cases he
  rcases hd : t.defaultWG with _ | d <;> simp only [hd] at h
  · cases h
  · simp only [ite_ok, put_ok, pure_ok] at h
    obtain ⟨_, h⟩ | ⟨_, h⟩ := h <;> cases h <;> subst ht' <;> exact ⟨rfl, rfl⟩

theorem runAuto_modify_ok {ms : List (M Unit)} {s : Store} {e : Err}
    (hm : ∀ m ∈ ms, ∀ s, fkOk s = true → ∃ s', m s = .ok ((), s') ∧ fkOk s' = true) (hs : fkOk s = true) :
    (runAuto ms s).2 ≠ .error e ∧ fkOk (runAuto ms s).1 = true := by
  induction ms generalizing s with
  | nil => exact ⟨by simp [runAuto], hs⟩
  | cons m ms ih =>
    obtain ⟨s', h1, h2⟩ := hm m (by simp) s hs
    have : runTx m s = (s', .ok ()) := by simp [runTx, h1, h2]
    unfold runAuto
    rw [this]
    exact ih (fun m hm' => hm m (by simp [hm'])) h2

theorem deleteUnmatchedQuantities_ok {s : Store} (hs : fkOk s = true) {e : Err} :
    (deleteUnmatchedQuantities s).2 ≠ .error e := by
  have hl : ∀ ls : List LocRec, ∀ m ∈ ls.map (fun l => locDelete l.id), ∀ s, fkOk s = true →
      ∃ s', m s = .ok ((), s') ∧ fkOk s' = true := by
    intro ls m hm s hs
    obtain ⟨l, _, rfl⟩ := List.mem_map.1 hm
    exact ⟨_, rfl, hs⟩
  have ha : ∀ ls : List AGroup, ∀ m ∈ ls.map (fun l => agDelete l.id), ∀ s, fkOk s = true →
      ∃ s', m s = .ok ((), s') ∧ fkOk s' = true := by
    intro ls m hm s hs
    obtain ⟨l, _, rfl⟩ := List.mem_map.1 hm
    exact ⟨_, rfl, hs⟩
  unfold deleteUnmatchedQuantities
  split
  · rename_i e' heq
    have h1 := (runAuto_modify_ok (e := e') (hl s.nonmatchingLocs) hs).1
    rw [heq] at h1
    exact absurd rfl h1
  · rename_i s' u heq
    have h1 := (runAuto_modify_ok (e := e) (hl s.nonmatchingLocs) hs).2
    rw [heq] at h1
    exact (runAuto_modify_ok (ha _) h1).1

theorem addLink_ok {other name : PyStr} {hint : Option PyStr} {selectors : List Sel}
    {isDefault : Option Bool} {otherHash : Option (List Int)} {complete : Bool} {s s' : Store}
    (hnd : (s.links.map (·.id)).Nodup)
    (h : addLink other name hint selectors isDefault otherHash complete s = .ok ((), s')) :
    let dflt := isDefault.getD (s.links.all fun l => l.other != other)
    s' = ({ s with links := s.links.map fun l =>
      if l.other = other ∧ dflt = true then { l with isDefault := false } else l } : Store).withLink
        ⟨0, other, hint, name, selectors, dflt, otherHash, complete⟩ := by
  intro dflt
  unfold addLink at h
  rw [bind_ok] at h
  obtain ⟨_, _, he, h⟩ := h
  rw [get_ok] at he
  cases he
  dsimp only at h
  rw [ite_ok] at h
  obtain ⟨_, h⟩ | ⟨_, h⟩ := h
  · cases h
  have hdflt : isDefault.getD (s.links.filter fun l => l.other == other).isEmpty = dflt := by
    have hbool : (s.links.filter fun l => l.other == other).isEmpty =
        s.links.all fun l => l.other != other := by
      rw [Bool.eq_iff_iff, List.isEmpty_iff, List.filter_eq_nil_iff, List.all_eq_true]
      simp
    rw [hbool]
  rw [hdflt, ite_ok] at h
  obtain ⟨hd, h⟩ | ⟨hd, h⟩ := h
  · rw [bind_ok] at h
    obtain ⟨_, t, ht, h⟩ := h
    rw [forM_if] at ht
    have := forM_linkUpdate (g := fun l => { l with isDefault := false }) hnd
      (fun l hl => List.mem_of_mem_filter (List.mem_of_mem_filter hl)) (fun _ _ => rfl) ht
    have ht' : t = { s with links := s.links.map fun l =>
        if l.other = other ∧ dflt = true then { l with isDefault := false } else l } := by
      rw [this]
      congr 1
      apply List.map_congr_left
      intro l hl
      by_cases ho : l.other = other
      · conv_rhs => rw [if_pos ⟨ho, hd⟩]
        by_cases hdl : l.isDefault = true
        · rw [if_pos]
          refine List.mem_map_of_mem (List.mem_filter.2 ⟨List.mem_filter.2 ⟨hl, by simp [ho]⟩, hdl⟩)
        · split
          · rfl
          · rw [Bool.not_eq_true] at hdl
            cases l
            simp only at hdl
            subst hdl
            rfl
      · simp only [ho, false_and, if_false]
        rw [if_neg]
        intro hm
        obtain ⟨x, hx, hxe⟩ := List.mem_map.1 hm
        have hx1 := List.mem_filter.1 (List.mem_of_mem_filter hx)
        rw [eq_of_id hnd hx1.1 hl hxe] at hx1
        exact ho (by simpa using hx1.2)
    rw [linkAdd_ok h, ht']
  · have hd' : dflt = false := by simpa using hd
    rw [linkAdd_ok h]
    congr 1
    simp [hd']

theorem editLink_ok {ref : PyStr} {name : Option PyStr} {c : LinkChanges} {s s' : Store}
    (hnd : (s.links.map (·.id)).Nodup) (h : editLink ref name c s = .ok ((), s')) :
    ∃ l, getLink s.links ref name = .ok l ∧
      s' = { s with links := upd Link.id (c.apply l) (s.links.map fun x =>
        if x.other = l.other ∧ c.isDefault = some true then { x with isDefault := false } else x) } := by
  unfold editLink at h
  rw [bind_ok] at h
  obtain ⟨_, _, he, h⟩ := h
  rw [get_ok] at he
  cases he
  rw [bind_ok] at h
  obtain ⟨l, _, he, h⟩ := h
  rw [liftE_ok] at he
  obtain ⟨_, hget, he⟩ := he
  cases he
  refine ⟨l, hget, ?_⟩
  dsimp only at h
  rw [ite_ok] at h
  obtain ⟨hd, h⟩ | ⟨hd, h⟩ := h
  · rw [bind_ok] at h
    obtain ⟨_, _, he, h⟩ := h
    rw [get_ok] at he
    cases he
    rw [bind_ok] at h
    obtain ⟨_, t, ht, h⟩ := h
    have := forM_linkUpdate (g := fun l => { l with isDefault := false }) hnd
      (fun l hl => List.mem_of_mem_filter hl) (fun _ _ => rfl) ht
    rw [linkUpdate_ok h, this]
    congr 2
    apply List.map_congr_left
    intro x hx
    by_cases ho : x.other = l.other
    · rw [if_pos, if_pos ⟨ho, hd⟩]
      exact List.mem_map_of_mem (List.mem_filter.2 ⟨hx, by simp [ho]⟩)
    · rw [if_neg, if_neg (fun hh => ho hh.1)]
      intro hm
      obtain ⟨y, hy, hye⟩ := List.mem_map.1 hm
      have hy1 := List.mem_filter.1 hy
      rw [eq_of_id hnd hy1.1 hx hye] at hy1
      exact ho (by simpa using hy1.2)
  · rw [linkUpdate_ok h]
    simp [hd]

theorem dropLink_ok {ref : PyStr} {name : Option PyStr} {s s' : Store}
    (h : dropLink ref name s = .ok ((), s')) :
    ∃ l, getLink s.links ref name = .ok l ∧ s' = { s with
      links := s.links.filter (fun x => x.id != l.id),
      maps := if s.fk then s.maps.filter (fun m => m.link != l.id) else s.maps } := by
  unfold dropLink at h
  rw [bind_ok] at h
  obtain ⟨_, _, he, h⟩ := h
  rw [get_ok] at he
  cases he
  rw [bind_ok] at h
  obtain ⟨l, _, he, h⟩ := h
  rw [liftE_ok] at he
  obtain ⟨_, hget, he⟩ := he
  cases he
  exact ⟨l, hget, (Prod.mk.inj (modify_ok.1 h)).2⟩

end Toron.Space
