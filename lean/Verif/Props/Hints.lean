/-
C114: the names that are recorded for the two files of a mapping.
-/
import Verif.Lemmas.Hints
import Verif.Props.StoreLinks

namespace Toron.Files

open Toron.Selectors (PyStr endsWith endsWith_iff)
open Toron.Space (Link findLinksByRef getLinksByRef Reachable toronExt)

/-- **C114** For two files, both given by absolute or both by relative paths, the names are their paths from the directory they
have in common, without the extension, whatever the current directory is. -/
theorem C114_relative (cwd : Key) (absolute : Bool) {common p q : List PyStr} (hc : ∀ c ∈ common, Plain c)
    (hp : ∀ c ∈ p, Plain c) (hq : ∀ c ∈ q, Plain c) (hpn : p ≠ []) (hqn : q ≠ []) (hd : p.head? ≠ q.head?) :
    Names (filenameHints cwd (some (pathText absolute (common ++ p))) (some (pathText absolute (common ++ q)))).1 (relText p) ∧
    Names (filenameHints cwd (some (pathText absolute (common ++ p))) (some (pathText absolute (common ++ q)))).2 (relText q) := by
  have hcp : ∀ c ∈ common ++ p, Plain c := fun c hm => (List.mem_append.1 hm).elim (hc c) (hp c)
  have hcq : ∀ c ∈ common ++ q, Plain c := fun c hm => (List.mem_append.1 hm).elim (hc c) (hq c)
  unfold filenameHints
  simp only [Option.getD_some]
  rw [slashes_pathText absolute hcp, slashes_pathText absolute hcq, withoutCommon_eq cwd absolute hc hp hq hpn hqn hd]
  exact ⟨shortHint_names _, shortHint_names _⟩

/-- `/data/x/a.toron` and `/data/b.toron`. -/
example : filenameHints [] (some "/data/x/a.toron".toList) (some "/data/b.toron".toList) =
      (some "x/a".toList, some "b".toList) ∧
    filenameHints [['h']] (some "data/x/a.toron".toList) (some "data/b".toList) = (some "x/a".toList, some "b".toList) ∧
    pathText true ([['d']] ++ [['x'], "a.toron".toList]) = "/d/x/a.toron".toList ∧
    (∀ c ∈ [['x'], "a.toron".toList], Plain c) := by decide +kernel

private theorem names_inj {h : Option PyStr} {a b : PyStr} (ha : Names h a) (hb : Names h b) (hna : a ≠ []) (hnb : b ≠ []) :
    a = b ∨ a = b ++ ".toron".toList ∨ b = a ++ ".toron".toList := by
  rcases ha with ⟨s, rfl, hs, rfl⟩ | ⟨_, _, rfl⟩ | ⟨rfl | rfl, rfl⟩
  · rcases hb with ⟨s', rfl, _, e⟩ | ⟨_, _, e⟩ | ⟨_, e⟩
    · cases e; exact .inl rfl
    · cases e; exact .inr (.inl rfl)
    · cases e
  · rcases hb with ⟨s', rfl, _, e⟩ | ⟨_, _, e⟩ | ⟨_, e⟩
    · cases e; exact .inr (.inr rfl)
    · cases e; exact .inl rfl
    · cases e
  · rcases hb with ⟨s', rfl, _, e⟩ | ⟨_, _, e⟩ | ⟨e | e, _⟩
    · cases e
    · cases e
    · exact .inl e.symm
    · exact absurd e hnb
  · exact absurd rfl hna

private theorem relText_inj {p q : List PyStr} (hp : ∀ c ∈ p, Plain c) (hq : ∀ c ∈ q, Plain c) (hpn : p ≠ []) (hqn : q ≠ [])
    (h : relText p = relText q) : p = q := by
  rw [← comps_relText (fun c hc => (hp c hc).2.2.2.1) hpn, h, comps_relText (fun c hc => (hq c hc).2.2.2.1) hqn]

/-- **C114, partial** Two files get different names if their paths do not just differ by the extension. If they do, the names are
the same (`C114_violated_extension`). -/
theorem C114_distinct_partial (cwd : Key) (absolute : Bool) {common p q : List PyStr} (hc : ∀ c ∈ common, Plain c)
    (hp : ∀ c ∈ p, Plain c) (hq : ∀ c ∈ q, Plain c) (hpn : p ≠ []) (hqn : q ≠ []) (hd : p.head? ≠ q.head?)
    (h1 : relText p ≠ relText q ++ ".toron".toList) (h2 : relText q ≠ relText p ++ ".toron".toList) :
    (filenameHints cwd (some (pathText absolute (common ++ p))) (some (pathText absolute (common ++ q)))).1 ≠
      (filenameHints cwd (some (pathText absolute (common ++ p))) (some (pathText absolute (common ++ q)))).2 := by
  intro e
  obtain ⟨n1, n2⟩ := C114_relative cwd absolute hc hp hq hpn hqn hd
  rw [← e] at n2
  rcases names_inj n1 n2 (relText_ne_nil hp hpn) (relText_ne_nil hq hqn) with e | e | e
  · exact hd (by rw [relText_inj hp hq hpn hqn e])
  · exact h1 e
  · exact h2 e

/-- **C114** If one of the dataspaces is not from a file, it gets no name, and the name of the other one is its path as it was
given, without the extension. -/
theorem C114_alone (cwd : Key) {path : PyStr} (hb : '\\' ∉ path) :
    ((filenameHints cwd none (some path)).1 = none ∧ Names (filenameHints cwd none (some path)).2 path) ∧
    (filenameHints cwd (some path) none).2 = none ∧ Names (filenameHints cwd (some path) none).1 path := by
  have hs : slashes path = path := by
    unfold slashes
    conv_rhs => rw [← List.map_id path]
    apply List.map_congr_left
    intro x hx
    rw [if_neg]
    · rfl
    · rintro rfl; exact hb hx
  have h0 : slashes [] = [] := rfl
  have hshown : shownComps [] = [] := by decide
  have hstart : ∀ l, commonStart l [] = [] := fun l => by cases l <;> rfl
  have w1 : withoutCommon cwd [] path = ([], path) := by
    unfold withoutCommon commonPath
    by_cases h : path.head? = some '/'
    · simp [h]
    · have e : decide (([] : PyStr).head? = some '/') = decide (path.head? = some '/') := by simp [h]
      rw [if_pos e, hshown, if_neg (by simp)]
      rfl
  have w2 : withoutCommon cwd path [] = (path, []) := by
    unfold withoutCommon commonPath
    by_cases h : path.head? = some '/'
    · simp [h]
    · have e : decide (path.head? = some '/') = decide (([] : PyStr).head? = some '/') := by simp [h]
      rw [if_pos e, hshown, if_neg h, hstart]
      rfl
  unfold filenameHints
  simp only [Option.getD_some, Option.getD_none, hs, h0, w1, w2]
  exact ⟨⟨by decide, shortHint_names _⟩, by decide, shortHint_names _⟩

example : filenameHints [] none (some "/data/b.toron".toList) = (none, some "/data/b".toList) := by decide +kernel

/-- **C114** When data are translated, a link is found by the recorded name of the file and by the path it stands for, unless a
dataspace has this text as its unique id. -/
theorem C114_found {links : List Link} {l : Link} (hl : l ∈ links) {path ref : PyStr} (hn : Names l.hint path)
    (hs : l.hint.isSome = true) (hr : ref = path ∨ l.hint = some ref) (hu : ∀ x ∈ links, x.other ≠ ref) :
    l ∈ findLinksByRef links ref := by
  have hex : (links.filter fun l => l.other == ref) = [] := by
    rw [List.filter_eq_nil_iff]
    intro x hx
    simpa using hu x hx
  have key : l ∈ (links.filter fun l => l.hint == some ref) ++
      (if endsWith ref toronExt then links.filter fun l => l.hint == some (ref.take (ref.length - 6))
       else links.filter fun l => l.hint == some (ref ++ toronExt)) := by
    by_cases he : l.hint = some ref
    · exact List.mem_append_left _ (List.mem_filter.2 ⟨hl, by simp [he]⟩)
    · rcases hr with rfl | hr
      · rcases hn with ⟨s, e, _, e2⟩ | ⟨_, _, e⟩ | ⟨_, e⟩
        · apply List.mem_append_right
          have h1 : endsWith ref toronExt = true := by
            rw [endsWith_iff, ext_eq, e]
            exact ⟨s, rfl⟩
          rw [if_pos h1, List.mem_filter]
          refine ⟨hl, ?_⟩
          have h2 : ref.take (ref.length - 6) = s := by
            have : ref.length - 6 = s.length := by
              rw [e, List.length_append]
              have : (".toron".toList).length = 6 := by decide
              omega
            rw [this, e, List.take_left]
          rw [h2]
          simpa using e2
        · exact absurd e he
        · rw [e] at hs; cases hs
      · exact absurd hr he
  unfold findLinksByRef
  dsimp only
  rw [hex, if_neg (by simp), if_pos]
  · exact key
  · intro e
    rw [e] at key
    cases key

/-- **C114 violated** Two files whose paths differ only by the extension get the same name. -/
theorem C114_violated_extension (cwd : Key) : filenameHints cwd (some "/d/a.toron".toList) (some "/d/a".toList) =
    (some "a".toList, some "a".toList) := by
  have h : filenameHints cwd (some "/d/a.toron".toList) (some "/d/a".toList) =
      filenameHints [] (some "/d/a.toron".toList) (some "/d/a".toList) := rfl
  rw [h]
  decide +kernel

/-- **C114 violated** A file that is linked to itself is named `.`, which says nothing about it. -/
theorem C114_violated_same : filenameHints [] (some "/d/a.toron".toList) (some "/d/a.toron".toList) =
    (some ".".toList, some ".".toList) := by decide +kernel

/-- **C114 violated** On POSIX a backslash may be part of a name: two different files get the same name. -/
theorem C114_violated_backslash : absKey [] "/d/x\\a.toron".toList ≠ absKey [] "/d/x/a.toron".toList ∧
    filenameHints [] (some "/d/x\\a.toron".toList) (some "/d/x/a.toron".toList) = (some ".".toList, some ".".toList) := by
  decide +kernel

/-- A dataspace with the link of a mapping that was loaded for `a.toron` and another file next to it. -/
private def linked : Space.Store := Space.run [.addLink ['v'] ['p'] (some ['a']) [] none none false] (Space.Store.new ['u'])

/-- **C114 violated** Functions that are given a reference to a link do not find it by the name of the file: the extension was
removed when the name was recorded, and it is only added, not removed, when the name is looked up. -/
theorem C114_violated_reference : ∃ s, Reachable s ∧ ∃ l ∈ s.links,
    (filenameHints [] (some "/d/a.toron".toList) (some "/d/b.toron".toList)).1 = l.hint ∧ Names l.hint "a.toron".toList ∧
    l ∈ findLinksByRef s.links "a.toron".toList ∧ (getLinksByRef s.links "a.toron".toList).toBool = false ∧
    (getLinksByRef s.links "a".toList).toBool = true := by
  have hl : ∃ l, linked.links = [l] ∧ l.hint = some ['a'] ∧ l.other = ['v'] := ⟨_, rfl, rfl, rfl⟩
  obtain ⟨l, hl, hh, ho⟩ := hl
  have hn : Names l.hint "a.toron".toList := .inl ⟨['a'], by decide, by simp, hh⟩
  refine ⟨linked, ⟨_, _, rfl⟩, l, by rw [hl]; simp, ?_, hn, ?_, by decide +kernel, by decide +kernel⟩
  · rw [hh]; decide +kernel
  · refine C114_found (by rw [hl]; simp) hn (by rw [hh]; rfl) (.inl rfl) ?_
    intro x hx
    rw [hl, List.mem_singleton] at hx
    rw [hx, ho]
    decide

end Toron.Files
