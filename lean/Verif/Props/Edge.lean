/-
The shorthand for links in the header of mapping data.
-/
import Verif.Lemmas.Edge
import Verif.Model.MappingCsv

namespace Toron.Edge

open Toron.Selectors (PyStr isSpace)
open Toron.MappingCsv (valuePosition)

/-- **C73** A link that is written in the shorthand, with any blanks between its parts, is read as these parts: its name,
its two files, its arrow and its selector. -/
theorem C73_read {e : Edge} {s : PyStr} (he : EdgeOk e) (ht : Trimmed e.name) (ht1 : Trimmed e.file1)
    (ht2 : Trimmed e.file2) (hw : Written e s) : parseEdge s = some e :=
  ways_head he ht ht1 ht2 hw

/-- A link with a selector that has a bracket and a colon in it. -/
def demo : Edge := ⟨"my pop".toList, "a-b".toList, "<-->".toList, "c".toList, some "[x=\"]: \"]".toList⟩

theorem demo_ok : EdgeOk demo :=
  ⟨⟨by decide +kernel, by decide +kernel⟩, ⟨by decide +kernel, by decide +kernel⟩, ⟨by decide +kernel, by decide +kernel⟩,
    by decide +kernel, fun t ht => by
      cases ht
      exact ⟨"x=\"]: \"".toList, by decide +kernel, by decide +kernel⟩⟩

theorem trimmed_of {t : PyStr} (h1 : (t.head?.all fun c => !isSpace c) = true)
    (h2 : (t.getLast?.all fun c => !isSpace c) = true) : Trimmed t := by
  constructor
  · intro c hc
    rw [hc] at h1
    simpa using h1
  · intro c hc
    rw [hc] at h2
    simpa using h2

example : Trimmed demo.name ∧ Trimmed demo.file1 ∧ Trimmed demo.file2 :=
  ⟨trimmed_of (by decide +kernel) (by decide +kernel), trimmed_of (by decide +kernel) (by decide +kernel),
    trimmed_of (by decide +kernel) (by decide +kernel)⟩

theorem demo_written : Written demo "  my pop : a-b <-->\tc :[x=\"]: \"] ".toList :=
  ⟨"  ".toList, " ".toList, " ".toList, " ".toList, "\t".toList, " ".toList, ":[x=\"]: \"] ".toList,
    by decide +kernel, by unfold Blank; decide +kernel, by unfold Blank; decide +kernel, by unfold Blank; decide +kernel,
    by unfold Blank; decide +kernel, by decide +kernel, by unfold Blank; decide +kernel, by decide +kernel,
    by unfold Blank; decide +kernel, [], " ".toList, by decide +kernel, by unfold Blank; decide +kernel,
    by unfold Blank; decide +kernel⟩

/-- **C73** What is read from a text is a link for which the text is the shorthand. -/
theorem C73_sound {e : Edge} {s : PyStr} (h : parseEdge s = some e) : EdgeOk e ∧ Written e s :=
  mem_ways.1 (List.mem_of_head? h)

example : parseEdge "population: mynode1 <--> mynode2".toList =
    some ⟨"population".toList, "mynode1".toList, "<-->".toList, "mynode2".toList, none⟩ := by decide +kernel

/-- **C73** A text is read as no link only if it is not the shorthand for any link. -/
theorem C73_none (s : PyStr) : parseEdge s = none ↔ ¬ ∃ e, EdgeOk e ∧ Written e s := by
  unfold parseEdge
  rw [List.head?_eq_none_iff, List.eq_nil_iff_forall_not_mem]
  simp only [mem_ways, not_exists]

example : parseEdge "population: mynode1 mynode2".toList = none := by decide +kernel

/-- **C73** Two different links, with names without blanks at their ends, never have the same shorthand. -/
theorem C73_unique {e e' : Edge} {s : PyStr} (he : EdgeOk e) (ht : Trimmed e.name ∧ Trimmed e.file1 ∧ Trimmed e.file2)
    (he' : EdgeOk e') (ht' : Trimmed e'.name ∧ Trimmed e'.file1 ∧ Trimmed e'.file2) (hw : Written e s)
    (hw' : Written e' s) : e = e' :=
  Option.some.inj ((C73_read he ht.1 ht.2.1 ht.2.2 hw).symm.trans (C73_read he' ht'.1 ht'.2.1 ht'.2.2 hw'))

/-- **C73** The column of the values is the first one whose header is the name of the link, or the shorthand for a link of
this name: if there is such a column, and no column before it has the name or can be read as a shorthand with the name,
it is the one that is taken. -/
theorem C73_column {link : PyStr} {pre post : List PyStr} {col : PyStr}
    (hcol : col = link ∨ ∃ e, EdgeOk e ∧ Trimmed e.name ∧ Trimmed e.file1 ∧ Trimmed e.file2 ∧ Written e col ∧ e.name = link)
    (hpre : ∀ c ∈ pre, c ≠ link ∧ ∀ e, EdgeOk e → Written e c → e.name ≠ link) :
    valuePosition edgeName link (pre ++ col :: post) = some pre.length := by
  unfold valuePosition
  have hhit : (col == link || edgeName col == some link) = true := by
    rw [Bool.or_eq_true, beq_iff_eq, beq_iff_eq]
    rcases hcol with h | ⟨e, h1, h2, h3, h4, h5, h6⟩
    · exact .inl h
    · right
      unfold edgeName
      rw [C73_read h1 h2 h3 h4 h5, ← h6]
      rfl
  have hmiss : ∀ c ∈ pre, (c == link || edgeName c == some link) = false := by
    intro c hc
    obtain ⟨h1, h2⟩ := hpre c hc
    rw [Bool.or_eq_false_iff, beq_eq_false_iff_ne, beq_eq_false_iff_ne]
    refine ⟨h1, fun h => ?_⟩
    unfold edgeName at h
    rw [Option.map_eq_some_iff] at h
    obtain ⟨e, he, hn⟩ := h
    obtain ⟨h3, h4⟩ := C73_sound he
    exact h2 e h3 h4 hn
  rw [List.findIdx?_append, List.findIdx?_eq_none_iff.2 hmiss, List.findIdx?_cons, if_pos hhit]
  simp

example : ∀ c ∈ ["index_code".toList, "state".toList],
    c ≠ "my pop".toList ∧ ∀ e, EdgeOk e → Written e c → e.name ≠ "my pop".toList := by
  intro c hc
  refine ⟨?_, fun e h1 h2 => ?_⟩
  · revert c; decide +kernel
  · have hn : ∀ c ∈ ["index_code".toList, "state".toList], parseEdge c = none := by decide +kernel
    have hn := hn c hc
    exact absurd ⟨e, h1, h2⟩ ((C73_none c).1 hn)

/-- **C73** No column is taken only if no header is the name of the link, or a shorthand with this name. -/
theorem C73_column_missing {link : PyStr} {header : List PyStr}
    (h : ∀ c ∈ header, c ≠ link ∧ ∀ e, EdgeOk e → Written e c → e.name ≠ link) :
    valuePosition edgeName link header = none := by
  unfold valuePosition
  rw [List.findIdx?_eq_none_iff]
  intro c hc
  obtain ⟨h1, h2⟩ := h c hc
  rw [Bool.or_eq_false_iff, beq_eq_false_iff_ne, beq_eq_false_iff_ne]
  refine ⟨h1, fun h' => ?_⟩
  unfold edgeName at h'
  rw [Option.map_eq_some_iff] at h'
  obtain ⟨e, he, hn⟩ := h'
  obtain ⟨h3, h4⟩ := C73_sound he
  exact h2 e h3 h4 hn

/-- **C73** (violated) The name of a link, or of a file, can be left out: a single blank is then read as the name. -/
theorem C73_violated_blank :
    parseEdge " : a -> b".toList = some ⟨" ".toList, "a".toList, "->".toList, "b".toList, none⟩ ∧
      parseEdge "pop:  -> b".toList = some ⟨"pop".toList, " ".toList, "->".toList, "b".toList, none⟩ ∧
      parseEdge "pop: a ->  ".toList = some ⟨"pop".toList, "a".toList, "->".toList, " ".toList, none⟩ := by
  decide +kernel

/-- **C73** (violated) The arrow in the header is not looked at when mapping data is loaded: the column is the same
whichever way the arrow points, and whatever files and selector are named. -/
theorem C73_violated_direction {e e' : Edge} {s s' : PyStr} {pre post : List PyStr} (he : EdgeOk e)
    (ht : Trimmed e.name ∧ Trimmed e.file1 ∧ Trimmed e.file2) (he' : EdgeOk e')
    (ht' : Trimmed e'.name ∧ Trimmed e'.file1 ∧ Trimmed e'.file2) (hw : Written e s) (hw' : Written e' s')
    (hname : e.name = e'.name) (link : PyStr) (hlink : s ≠ link ∧ s' ≠ link) :
    valuePosition edgeName link (pre ++ s :: post) = valuePosition edgeName link (pre ++ s' :: post) := by
  have h1 := C73_read he ht.1 ht.2.1 ht.2.2 hw
  have h2 := C73_read he' ht'.1 ht'.2.1 ht'.2.2 hw'
  unfold valuePosition
  rw [List.findIdx?_append, List.findIdx?_append, List.findIdx?_cons, List.findIdx?_cons]
  have e1 : (s == link) = false := beq_eq_false_iff_ne.2 hlink.1
  have e2 : (s' == link) = false := beq_eq_false_iff_ne.2 hlink.2
  have e3 : edgeName s = edgeName s' := by
    unfold edgeName
    rw [h1, h2, Option.map_some, Option.map_some, hname]
  rw [e1, e2, e3]

example : valuePosition edgeName "pop".toList ["x".toList, "pop: a -> b".toList, "x".toList] =
    valuePosition edgeName "pop".toList ["x".toList, "pop: b <- a : [z=\"1\"]".toList, "x".toList] := by decide +kernel

end Toron.Edge
