/-
C20: looking up a link by a reference.
-/
import Verif.Lemmas.Store.Links
import Verif.Lemmas.Store.Inv2
import Verif.Lemmas.Selectors
import Verif.Lemmas.Distinct
import Verif.Spec.Links
import Verif.Demo

namespace Toron.Space

open Toron.Selectors (PyStr Sel)

theorem toronExt_eq : toronExt = ".toron".toList := by decide

/-- The links found by name or prefix, before the check that they belong to one dataspace. -/
theorem getLinksByRef_meant (links : List Link) (ref : PyStr) :
    (ref = [] ∧ ∃ e, getLinksByRef links ref = .error e) ∨
    ref ≠ [] ∧ ∃ found : List Link, (∀ l, l ∈ found ↔ Meant links ref l) ∧
      (getLinksByRef links ref = .ok found ∧ found ≠ [] ∧ (∀ a ∈ found, ∀ b ∈ found, a.other = b.other) ∨
       (∃ e, getLinksByRef links ref = .error e) ∧
        (found = [] ∨ ∃ a ∈ found, ∃ b ∈ found, a.other ≠ b.other)) := by
  unfold getLinksByRef
  by_cases h0 : ref = []
  · exact .inl ⟨h0, _, if_pos h0⟩
  refine .inr ⟨h0, ?_⟩
  rw [if_neg h0]
  dsimp only
  by_cases he : (links.filter fun l => l.other == ref) ≠ []
  · rw [if_pos he]
    refine ⟨links.filter fun l => l.other == ref, ?_, .inl ⟨rfl, he, ?_⟩⟩
    · intro l
      obtain ⟨x, hx⟩ := List.exists_mem_of_ne_nil _ he
      simp only [List.mem_filter, beq_iff_eq] at hx ⊢
      unfold Meant RefId
      constructor
      · exact fun h => ⟨h.1, .inl h.2⟩
      · rintro ⟨h, h' | ⟨h', _⟩⟩
        · exact ⟨h, h'⟩
        · exact absurd hx.2 (h' x hx.1)
    · intro a ha b hb
      simp only [List.mem_filter, beq_iff_eq] at ha hb
      rw [ha.2, hb.2]
  rw [if_neg he]
  have hid : ∀ x ∈ links, ¬ RefId ref x := by
    intro x hx hr
    apply he
    intro hn
    have : x ∈ links.filter fun l => l.other == ref := List.mem_filter.2 ⟨hx, by simpa [RefId] using hr⟩
    rw [hn] at this
    cases this
  generalize hb : (if Selectors.endsWith ref toronExt = true then links.filter fun l => l.hint == some ref
    else (links.filter fun l => l.hint == some ref) ++
      links.filter fun l => l.hint == some (ref ++ toronExt)) = bh
  have hbh : ∀ l, l ∈ bh ↔ l ∈ links ∧ RefHint ref l := by
    intro l
    unfold RefHint
    rw [← hb, ← toronExt_eq, ← Selectors.endsWith_iff]
    by_cases h : Selectors.endsWith ref toronExt = true
    · rw [if_pos h]
      simp [List.mem_filter, h]
    · rw [if_neg h]
      simp only [List.mem_append, List.mem_filter, beq_iff_eq, h]
      tauto
  generalize hf : (if bh = [] ∧ 7 ≤ ref.length then links.filter fun l => Selectors.startsWith l.other ref else bh) = fd
  have hfd : ∀ l, l ∈ fd ↔ Meant links ref l := by
    intro l
    unfold Meant
    rw [← hf]
    by_cases h : bh = [] ∧ 7 ≤ ref.length
    · rw [if_pos h]
      have hh : ∀ x ∈ links, ¬ RefHint ref x := by
        intro x hx hr
        have := (hbh x).2 ⟨hx, hr⟩
        rw [h.1] at this
        cases this
      simp only [List.mem_filter, Selectors.startsWith_iff]
      unfold RefPrefix
      constructor
      · exact fun hx => ⟨hx.1, .inr ⟨hid, .inr ⟨hh, h.2, hx.2⟩⟩⟩
      · rintro ⟨h1, h2 | ⟨_, h2 | ⟨_, _, h2⟩⟩⟩
        · exact absurd h2 (hid l h1)
        · exact absurd h2 (hh l h1)
        · exact ⟨h1, h2⟩
    · rw [if_neg h, hbh]
      constructor
      · exact fun hx => ⟨hx.1, .inr ⟨hid, .inl hx.2⟩⟩
      · rintro ⟨h1, h2 | ⟨_, h2 | ⟨h3, h4, h2⟩⟩⟩
        · exact absurd h2 (hid l h1)
        · exact ⟨h1, h2⟩
        · exfalso
          apply h
          refine ⟨?_, h4⟩
          apply List.eq_nil_iff_forall_not_mem.2
          intro x hx
          exact h3 x ((hbh x).1 hx).1 ((hbh x).1 hx).2
  refine ⟨fd, hfd, ?_⟩
  by_cases h1 : (distinct (fd.map (·.other))).length > 1
  · rw [if_pos h1]
    refine .inr ⟨⟨_, rfl⟩, .inr ?_⟩
    by_contra hcon
    push Not at hcon
    have hnd := nodup_distinct (fd.map (·.other))
    rcases hd : distinct (fd.map (·.other)) with _ | ⟨a, _ | ⟨b, t⟩⟩ <;> rw [hd] at h1 hnd
    · simp at h1
    · simp at h1
    · have ha : a ∈ fd.map (·.other) := mem_distinct.1 (by rw [hd]; simp)
      have hb : b ∈ fd.map (·.other) := mem_distinct.1 (by rw [hd]; simp)
      obtain ⟨x, hx, rfl⟩ := List.mem_map.1 ha
      obtain ⟨y, hy, rfl⟩ := List.mem_map.1 hb
      simp [hcon x hx y hy] at hnd
  rw [if_neg h1]
  by_cases h2 : fd = []
  · rw [if_pos h2]
    exact .inr ⟨⟨_, rfl⟩, .inl h2⟩
  · rw [if_neg h2]
    refine .inl ⟨rfl, h2, ?_⟩
    intro a ha b hb
    have ha' : a.other ∈ distinct (fd.map (·.other)) := mem_distinct.2 (List.mem_map_of_mem ha)
    have hb' : b.other ∈ distinct (fd.map (·.other)) := mem_distinct.2 (List.mem_map_of_mem hb)
    generalize distinct (fd.map (·.other)) = d at *
    rcases d with _ | ⟨x, _ | ⟨y, t⟩⟩
    · cases ha'
    · rw [List.mem_singleton] at ha' hb'
      rw [ha', hb']
    · simp at h1

/-- Links are returned only if the reference means links to exactly one dataspace, and then exactly these
are returned. -/
theorem C20_links_by_ref {links : List Link} {ref : PyStr} {found : List Link}
    (h : getLinksByRef links ref = .ok found) :
    (∀ l, l ∈ found ↔ Meant links ref l) ∧ found ≠ [] ∧ ∀ a ∈ found, ∀ b ∈ found, a.other = b.other := by
  obtain ⟨_, e, he⟩ | ⟨_, fd, hm, ⟨he, hne, hsame⟩ | ⟨⟨e, he⟩, _⟩⟩ := getLinksByRef_meant links ref
  · rw [he] at h; cases h
  · rw [he] at h; cases h; exact ⟨hm, hne, hsame⟩
  · rw [he] at h; cases h

/-- Conversely the lookup fails only if the reference is empty, means no link, or means links to different
dataspaces. -/
theorem C20_links_by_ref_fails {links : List Link} {ref : PyStr} {e : Err}
    (h : getLinksByRef links ref = .error e) :
    ref = [] ∨ (∀ l, ¬ Meant links ref l) ∨
      ∃ a b, Meant links ref a ∧ Meant links ref b ∧ a.other ≠ b.other := by
  obtain ⟨h0, _⟩ | ⟨_, fd, hm, ⟨he, _⟩ | ⟨_, h' | ⟨a, ha, b, hb, hne⟩⟩⟩ := getLinksByRef_meant links ref
  · exact .inl h0
  · rw [he] at h; cases h
  · refine .inr (.inl fun l hl => ?_)
    have := (hm l).2 hl
    rw [h'] at this
    cases this
  · exact .inr (.inr ⟨a, b, (hm a).1 ha, (hm b).1 hb, hne⟩)

/-- In every dataspace: the link returned for a reference and a name is the only link meant by the reference
that has this name; without a name it is the only link meant by the reference, or (if allowed) the only one
marked as default. -/
theorem C20_get_link {s : Store} (hs : Reachable s) {ref : PyStr} {name : Option PyStr} {b : Bool} {l : Link}
    (h : getLink s.links ref name b = .ok l) :
    Meant s.links ref l ∧
    ((∃ n, n ≠ [] ∧ name = some n ∧ l.name = n ∧ ∀ x, Meant s.links ref x → x.name = n → x = l) ∨
     ((name = none ∨ name = some []) ∧
      ((∀ x, Meant s.links ref x → x = l) ∨
       (b = true ∧ l.isDefault = true ∧ ∀ x, Meant s.links ref x → x.isDefault = true → x = l)))) := by
  unfold getLink at h
  rcases hf : getLinksByRef s.links ref with e | found <;> simp only [hf, Bind.bind, Except.bind] at h
  · cases h
  obtain ⟨hm, _, hsame⟩ := C20_links_by_ref hf
  have hnames := hs.linkInv.names
  have hdef := hs.linkInv.defaults
  by_cases hn : name ≠ none ∧ name ≠ some []
  · rw [if_pos hn] at h
    rcases hfi : found.find? (fun l => some l.name == name) with _ | x <;> simp only [hfi] at h
    · cases h
    · cases h
      have hl := List.mem_of_find?_eq_some hfi
      have hln := List.find?_some hfi
      rw [beq_iff_eq] at hln
      refine ⟨(hm l).1 hl, .inl ⟨l.name, ?_, hln.symm, rfl, ?_⟩⟩
      · intro he
        rw [he] at hln
        exact hn.2 hln.symm
      · intro x hx hxn
        have hxf := (hm x).2 hx
        exact List.inj_on_of_nodup_map hnames hx.1 ((hm l).1 hl).1 (by rw [hxn, hsame x hxf l hl])
  · rw [if_neg hn] at h
    have hn' : name = none ∨ name = some [] := by
      by_contra hc
      exact hn ⟨fun h => hc (.inl h), fun h => hc (.inr h)⟩
    rcases found with _ | ⟨x, _ | ⟨y, t⟩⟩
    · rcases b with _ | _
      · simp at h
      · simp at h
    · cases h
      refine ⟨(hm l).1 (by simp), .inr ⟨hn', .inl ?_⟩⟩
      intro x hx
      simpa using (hm x).2 hx
    · rcases b with _ | _
      · simp at h
      · simp only [Bool.not_true, Bool.false_eq_true, if_false] at h
        rcases hfi : (x :: y :: t).find? (·.isDefault) with _ | z <;> simp only [hfi] at h
        · cases h
        · cases h
          have hl := List.mem_of_find?_eq_some hfi
          have hld := List.find?_some hfi
          refine ⟨(hm l).1 hl, .inr ⟨hn', .inr ⟨rfl, hld, ?_⟩⟩⟩
          intro x' hx hxd
          by_contra hne
          have hxf := (hm x').2 hx
          have hmem := hx.1
          have hlm := ((hm l).1 hl).1
          haveI : Std.Symm fun a b : Link => a.other = b.other → ¬ (a.isDefault = true ∧ b.isDefault = true) :=
            ⟨fun a b h h2 h3 => h h2.symm ⟨h3.2, h3.1⟩⟩
          exact hdef.forall hmem hlm hne (hsame x' hxf l hl) ⟨hxd, hld⟩

/-- A dataspace with two links to one dataspace and one link to another: by unique id, by filename with and
without extension, by prefix; the name or the default flag selects the link. -/
example : let ops : List Op := [.addLink "abcdefgh".toList ['p'] (some "f.toron".toList) [] none none false,
      .addLink "abcdefgh".toList ['q'] (some "f.toron".toList) [] none none false,
      .addLink "abcdefgx".toList ['p'] (some "g".toList) [] none none false]
    let s := run ops (Store.new ['u'])
    Reachable s ∧
    (getLink s.links "abcdefgh".toList none).map (·.id) = .ok 1 ∧
    (getLink s.links "f".toList (some ['q'])).map (·.id) = .ok 2 ∧
    (getLink s.links "f.toron".toList none).map (·.id) = .ok 1 ∧
    (getLink s.links "g".toList none false).map (·.id) = .ok 3 ∧
    (getLink s.links "abcdefg".toList none).map (·.id) = .error (.toronError "more than one file") ∧
    (getLink s.links "abcdef".toList none).map (·.id) = .error (.toronError "no links match reference") := by
  refine ⟨⟨_, _, rfl⟩, ?_⟩
  decide +kernel

/-- The lookup made when data are translated: if any link belongs to the dataspace with this unique id, it
finds exactly the links of that dataspace. -/
theorem C20_find_by_unique_id {links : List Link} {ref : PyStr} (h : ∃ l ∈ links, l.other = ref) :
    ∀ l, l ∈ findLinksByRef links ref ↔ l ∈ links ∧ l.other = ref := by
  obtain ⟨x, hx, hr⟩ := h
  intro l
  unfold findLinksByRef
  dsimp only
  rw [if_pos]
  · simp [List.mem_filter]
  · intro hn
    have : x ∈ links.filter fun l => l.other == ref := List.mem_filter.2 ⟨hx, by simpa using hr⟩
    rw [hn] at this
    cases this

/-- Otherwise it may find links of several dataspaces. -/
theorem C20_find_ambiguous_violated :
    ∃ s ref, Reachable s ∧ ∃ a ∈ findLinksByRef s.links ref, ∃ b ∈ findLinksByRef s.links ref, a.other ≠ b.other := by
  refine ⟨run [.addLink "abcdefgh".toList ['p'] none [] none none false,
      .addLink "abcdefgx".toList ['p'] none [] none none false] (Store.new ['u']), "abcdefg".toList,
    ⟨_, _, rfl⟩, ?_⟩
  decide +kernel

end Toron.Space
