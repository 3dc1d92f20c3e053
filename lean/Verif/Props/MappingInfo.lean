/-
C119: what is said about a mapping is true.
-/
import Verif.Spec.MappingInfo
import Verif.Props.Graph
import Verif.Lemmas.CliEdit

namespace Toron.MappingInfo

open Toron.Selectors (PyStr endsWith)
open Toron.Space

theorem Exactly.unique {α : Type} {P : α → Prop} {a b : Int} (h : Exactly P a) (h' : Exactly P b) : a = b := by
  obtain ⟨l, hn, hm, rfl⟩ := h
  obtain ⟨l', hn', hm', rfl⟩ := h'
  rw [((List.perm_ext_iff_of_nodup hn hn').2 fun x => by rw [hm, hm']).length_eq]

theorem Exactly.zero_iff {α : Type} {P : α → Prop} {a : Int} (h : Exactly P a) : a = 0 ↔ ∀ x, ¬ P x := by
  obtain ⟨l, _, hm, rfl⟩ := h
  constructor
  · intro h0 x hx
    have := (hm x).2 hx
    have h1 : l = [] := List.length_eq_zero_iff.1 (by omega)
    rw [h1] at this
    cases this
  · intro h0
    have : l = [] := List.eq_nil_iff_forall_not_mem.2 fun x hx => h0 x ((hm x).1 hx)
    rw [this]
    rfl

theorem Exactly.nat {α : Type} {P : α → Prop} {a : Int} (h : Exactly P a) : ∃ n : Nat, a = n := by
  obtain ⟨l, _, _, rfl⟩ := h
  exact ⟨_, rfl⟩

theorem stats_other {trg src : Store} {l : Link} {st : MapStats} (h : trg.mappingStats src l = .ok st) :
    l.other = src.uid := by
  unfold Store.mappingStats at h
  split at h
  · cases h
  · rename_i h1
    simpa using h1

theorem stats_ok {trg src : Store} {l : Link} (h : l.other = src.uid) : ∃ st, trg.mappingStats src l = .ok st := by
  unfold Store.mappingStats
  rw [if_neg (by simp [h])]
  exact ⟨_, rfl⟩

theorem mappingLog_ok {trg src : Store} {name : PyStr} {ms : List Message} :
    mappingLog trg src name = .ok ms ↔
      ∃ l st, getLink trg.links src.uid (some name) = .ok l ∧ trg.mappingStats src l = .ok st ∧ ms = messages st := by
  unfold mappingLog
  constructor
  · intro h
    cases h1 : getLink trg.links src.uid (some name) with
    | error e => rw [h1] at h; cases h
    | ok l =>
      rw [h1] at h
      change (trg.mappingStats src l >>= fun st => _) = _ at h
      cases h2 : trg.mappingStats src l with
      | error e => rw [h2] at h; cases h
      | ok st =>
        rw [h2] at h
        cases h
        exact ⟨l, st, rfl, h2, rfl⟩
  · rintro ⟨l, st, h1, h2, rfl⟩
    rw [h1]
    change (trg.mappingStats src l >>= fun st => _) = _
    rw [h2]
    rfl

/-- Something is said about a mapping exactly if there is a link from the source with this name. -/
theorem C119_exists {trg src : Store} (ht : Reachable trg) (hu : src.uid ≠ []) {name : PyStr} (hn : name ≠ []) :
    (∃ ms, mappingLog trg src name = .ok ms) ↔ ∃ l ∈ trg.links, l.other = src.uid ∧ l.name = name := by
  constructor
  · rintro ⟨ms, h⟩
    obtain ⟨l, st, h1, h2, -⟩ := mappingLog_ok.1 h
    obtain ⟨hm, hx⟩ := C20_get_link ht h1
    refine ⟨l, hm.1, stats_other h2, ?_⟩
    rcases hx with ⟨n, _, h3, h4, _⟩ | ⟨h3 | h3, _⟩
    · cases h3; exact h4
    · cases h3
    · cases h3; exact absurd rfl hn
  · rintro ⟨l, hl, h1, h2⟩
    obtain ⟨st, hst⟩ := stats_ok (trg := trg) h1
    exact ⟨_, mappingLog_ok.2 ⟨l, st, CliEdit.getLink_found ht.linkInv hu hn hl h1 h2, hst, rfl⟩⟩

example : Reachable Demo.store ∧ Demo.src.uid ≠ [] ∧ ∃ l ∈ Demo.store.links, l.other = Demo.src.uid ∧ l.name = ['l'] :=
  ⟨Demo.reachable, by decide +kernel, by decide +kernel⟩

theorem mem_unlessZero {f : Int → Message} {n : Int} {m : Message} : m ∈ unlessZero f n ↔ n ≠ 0 ∧ m = f n := by
  unfold unlessZero
  split
  · simp [*]
  · simp [*]

theorem mem_messages {st : MapStats} {m : Message} : m ∈ messages st ↔
    (m = .verified ∧ st.srcMissing = 0 ∧ st.srcStale = 0 ∧ st.trgMissing = 0) ∨
    (st.srcMissing ≠ 0 ∧ m = .sourceMissing st.srcMissing) ∨ (st.srcStale ≠ 0 ∧ m = .sourceStale st.srcStale) ∨
    (st.trgMissing ≠ 0 ∧ m = .targetMissing st.trgMissing) := by
  unfold messages
  split
  · rename_i h
    simp [h]
  · rename_i h
    simp only [List.mem_append, mem_unlessZero]
    constructor
    · rintro ((h1 | h1) | h1)
      · exact .inr (.inl h1)
      · exact .inr (.inr (.inl h1))
      · exact .inr (.inr (.inr h1))
    · rintro (h1 | h1 | h1 | h1)
      · exact absurd h1.2 h
      · exact .inl (.inl h1)
      · exact .inl (.inr h1)
      · exact .inr h1

/-- The messages after a mapping was loaded are true: it is called verified exactly if every record of both sides is covered and
there is no mapping from anything else, and the numbers in the other messages are the numbers of records that are not covered and of
ids that are no records. What is missing: targets that were opened from a file before mappings were inserted, see
`C119_violated_verified`. -/
theorem C119_log_partial {src trg : Store} (hs : Reachable src) (hf : ReachableFk trg) (hh : ReachableHashed trg)
    {name : PyStr} {ms : List Message} (h : mappingLog trg src name = .ok ms) :
    ∃ l ∈ trg.links, l.other = src.uid ∧ (name ≠ [] → l.name = name) ∧
      (.verified ∈ ms ↔ (∀ i ∈ src.ids, CoveredFrom trg l i) ∧ (∀ i ∈ trg.ids, ReachedBy trg l i) ∧ ∀ o, ¬ Stale trg src l o) ∧
      (∀ n, .sourceMissing n ∈ ms ↔ n ≠ 0 ∧ Exactly (fun i => i ∈ src.ids ∧ ¬ CoveredFrom trg l i) n) ∧
      (∀ n, .sourceStale n ∈ ms ↔ n ≠ 0 ∧ Exactly (Stale trg src l) n) ∧
      (∀ n, .targetMissing n ∈ ms ↔ n ≠ 0 ∧ Exactly (fun i => i ∈ trg.ids ∧ ¬ ReachedBy trg l i) n) := by
  obtain ⟨l, st, h1, h2, rfl⟩ := mappingLog_ok.1 h
  obtain ⟨hm, hx⟩ := C20_get_link hf.reachable h1
  obtain ⟨_, _, e3, e4, _, _, e7⟩ := C42_stats hs hf hh hm.1 h2
  refine ⟨l, hm.1, stats_other h2, ?_, ?_, ?_, ?_, ?_⟩
  · intro hn
    rcases hx with ⟨n, _, h3, h4, _⟩ | ⟨h3 | h3, _⟩
    · cases h3; exact h4
    · cases h3
    · cases h3; exact absurd rfl hn
  · rw [mem_messages]
    have key : (Message.verified ∈ [Message.verified] ∧ st.srcMissing = 0 ∧ st.srcStale = 0 ∧ st.trgMissing = 0) ↔
        (∀ i ∈ src.ids, CoveredFrom trg l i) ∧ (∀ i ∈ trg.ids, ReachedBy trg l i) ∧ ∀ o, ¬ Stale trg src l o := by
      rw [Exactly.zero_iff e3, Exactly.zero_iff e4, Exactly.zero_iff e7]
      constructor
      · rintro ⟨_, a, b, c⟩
        exact ⟨fun i hi => by_contra fun hc => a i ⟨hi, hc⟩, fun i hi => by_contra fun hc => c i ⟨hi, hc⟩, b⟩
      · rintro ⟨a, c, b⟩
        exact ⟨by simp, fun i hi => hi.2 (a i hi.1), b, fun i hi => hi.2 (c i hi.1)⟩
    rw [← key]
    simp
  · intro n
    rw [mem_messages]
    constructor
    · rintro (⟨h, _⟩ | ⟨h0, h⟩ | ⟨_, h⟩ | ⟨_, h⟩) <;> cases h
      exact ⟨h0, e3⟩
    · rintro ⟨h0, hn⟩
      have := Exactly.unique hn e3
      subst this
      exact .inr (.inl ⟨h0, rfl⟩)
  · intro n
    rw [mem_messages]
    constructor
    · rintro (⟨h, _⟩ | ⟨_, h⟩ | ⟨h0, h⟩ | ⟨_, h⟩) <;> cases h
      exact ⟨h0, e4⟩
    · rintro ⟨h0, hn⟩
      have := Exactly.unique hn e4
      subst this
      exact .inr (.inr (.inl ⟨h0, rfl⟩))
  · intro n
    rw [mem_messages]
    constructor
    · rintro (⟨h, _⟩ | ⟨_, h⟩ | ⟨_, h⟩ | ⟨h0, h⟩) <;> cases h
      exact ⟨h0, e7⟩
    · rintro ⟨h0, hn⟩
      have := Exactly.unique hn e7
      subst this
      exact .inr (.inr (.inr ⟨h0, rfl⟩))

-- the hypotheses can be met: for the source as it was, and after one of its records was deleted
example : Reachable Demo.src ∧ ReachableFk Demo.store ∧ ReachableHashed Demo.store ∧
    (mappingLog Demo.store Demo.src ['l']).toOption = some [.verified] ∧
    (mappingLog Demo.store Demo.src' ['l']).toOption = some [.sourceStale 1] :=
  ⟨Demo.src_reachable, Demo.reachableFk, Demo.reachableHashed, by decide +kernel, by decide +kernel⟩

/-- Every loaded mapping is commented on, and a mapping that is called verified gets no warning. -/
theorem C119_log_some {src trg : Store} {name : PyStr} {ms : List Message} (h : mappingLog trg src name = .ok ms) :
    ms ≠ [] ∧ (.verified ∈ ms → ms = [.verified]) := by
  obtain ⟨l, st, _, _, rfl⟩ := mappingLog_ok.1 h
  unfold messages
  by_cases h0 : st.srcMissing = 0 ∧ st.srcStale = 0 ∧ st.trgMissing = 0
  · rw [if_pos h0]
    exact ⟨by simp, fun _ => rfl⟩
  · rw [if_neg h0]
    constructor
    · intro he
      rw [List.append_eq_nil_iff, List.append_eq_nil_iff] at he
      have z : ∀ {f : Int → Message} {n : Int}, unlessZero f n = [] → n = 0 := by
        intro f n h
        by_contra hn
        unfold unlessZero at h
        rw [if_neg hn] at h
        cases h
      exact h0 ⟨z he.1.1, z he.1.2, z he.2⟩
    · intro hv
      simp only [List.mem_append, mem_unlessZero] at hv
      rcases hv with (⟨_, h⟩ | ⟨_, h⟩) | ⟨_, h⟩ <;> cases h

/-! ### The description -/

theorem intChars_nat (n : Nat) : intChars n = number n := by
  unfold number
  show Nat.toDigits 10 n = (Nat.repr n).toList
  rw [Nat.repr]
  simp

theorem matchedLine_nat (called : PyStr) (a b : Nat) : matchedLine called a b = numbersLine called a b := by
  unfold matchedLine numbersLine
  rw [intChars_nat, intChars_nat]
  rfl

theorem staleLine_nat (path : Option PyStr) (n : Nat) : staleLine path n = warningLine n (path.getD "None".toList) := by
  unfold staleLine warningLine
  rw [intChars_nat]
  rfl

/-- A dataspace with a file is called by the name of its file, without the extension, and any other by the beginning of its id. -/
theorem C119_called (uid : PyStr) :
    (∀ p, calledBy (some (p ++ ".toron".toList)) uid = p) ∧
    (∀ path, (∀ p, path ≠ some (p ++ ".toron".toList)) → calledBy path uid = "[".toList ++ uid.take 7 ++ "]".toList) := by
  constructor
  · intro p
    unfold calledBy
    dsimp only
    rw [if_pos]
    · rw [List.length_append]
      show (p ++ ".toron".toList).take (p.length + 6 - 6) = p
      rw [Nat.add_sub_cancel, List.take_left]
    · refine ⟨by simp, ?_⟩
      exact (Selectors.endsWith_iff _ _).2 ⟨p, rfl⟩
  · intro path h
    unfold calledBy
    cases path with
    | none => rfl
    | some p =>
      dsimp only
      rw [if_neg]
      · rfl
      · rintro ⟨_, he⟩
        obtain ⟨t, ht⟩ := (Selectors.endsWith_iff _ _).1 he
        exact h t (by rw [← ht]; rfl)

/-- The description of a mapping tells, for the source and for the target, how many records there are and how many of them are covered
(the undefined record counts as covered), and how many mappings are from something that is no record any more, if any. What is missing: targets that were opened from a file before
mappings were inserted (`C119_violated_verified`), and numbers that leave the undefined record out (`C119_violated_undefined`). -/
theorem C119_info_partial {src trg : Store} (hs : Reachable src) (hf : ReachableFk trg) (hh : ReachableHashed trg)
    {srcPath trgPath name : Option PyStr} {lines : List PyStr}
    (h : mappingInfo trg src srcPath trgPath name = .ok lines) :
    ∃ l ∈ trg.links, l.other = src.uid ∧ (∀ n, name = some n → n ≠ [] → l.name = n) ∧
      ∃ a b c d e : Nat,
        Exactly (fun i => i ∈ src.ids ∧ CoveredFrom trg l i) a ∧ Exactly (· ∈ src.ids) b ∧
        Exactly (fun i => i ∈ trg.ids ∧ ReachedBy trg l i) c ∧ Exactly (· ∈ trg.ids) d ∧ Exactly (Stale trg src l) e ∧
        lines = [titleLine l.name (calledBy srcPath src.uid) (calledBy trgPath trg.uid), [],
            numbersLine (calledBy srcPath src.uid) a b, numbersLine (calledBy trgPath trg.uid) c d] ++
          if e = 0 then [] else [[], warningLine e (srcPath.getD "None".toList)] := by
  unfold mappingInfo at h
  cases h1 : getLink trg.links src.uid name with
  | error e => rw [h1] at h; cases h
  | ok l =>
    rw [h1] at h
    change (trg.mappingStats src l >>= fun st => _) = _ at h
    cases h2 : trg.mappingStats src l with
    | error e => rw [h2] at h; cases h
    | ok st =>
      rw [h2] at h
      cases h
      obtain ⟨hm, hx⟩ := C20_get_link hf.reachable h1
      obtain ⟨e1, e2, _, e4, e5, e6, _⟩ := C42_stats hs hf hh hm.1 h2
      obtain ⟨a, ha⟩ := Exactly.nat e2
      obtain ⟨b, hb⟩ := Exactly.nat e1
      obtain ⟨c, hc⟩ := Exactly.nat e6
      obtain ⟨d, hd⟩ := Exactly.nat e5
      obtain ⟨e, he⟩ := Exactly.nat e4
      rw [ha] at e2
      rw [hb] at e1
      rw [hc] at e6
      rw [hd] at e5
      rw [he] at e4
      have hname : ∀ n, name = some n → n ≠ [] → l.name = n := by
        intro n hn h0
        rcases hx with ⟨n', _, h3, h4, _⟩ | ⟨h3 | h3, _⟩
        · rw [hn] at h3; cases h3; exact h4
        · rw [hn] at h3; cases h3
        · rw [hn] at h3; cases h3; exact absurd rfl h0
      refine ⟨l, hm.1, stats_other h2, hname, a, b, c, d, e, e2, e1, e6, e5, e4, ?_⟩
      have hshown : (if name = none ∨ name = some [] then l.name else name.getD []) = l.name := by
        split
        · rfl
        · rename_i hno
          cases name with
          | none => exact absurd (.inl rfl) hno
          | some n => exact (hname n rfl fun h0 => hno (.inr (by rw [h0]))).symm
      rw [hshown]
      unfold infoLines
      rw [ha, hb, hc, hd, he, matchedLine_nat, matchedLine_nat, staleLine_nat]
      congr 1
      by_cases h0 : e = 0
      · rw [if_pos h0, if_pos (by exact_mod_cast h0)]
      · rw [if_neg h0, if_neg (by exact_mod_cast h0)]

example : (mappingInfo Demo.store Demo.src' (some "a.toron".toList) none none).toOption =
    some ["l: a -> [u]".toList, [], "  a: matched 2 of 2 indexes".toList, "  [u]: matched 4 of 4 indexes".toList, [],
      "  Mapping contains 1 indexes that no longer exist in a.toron".toList] := by decide +kernel

/-- Violated: the undefined record is counted, so that a link without any mapping is described as matching one record of each
side. -/
theorem C119_violated_undefined : ∃ src trg lines, Reachable src ∧ ReachableFk trg ∧ trg.maps = [] ∧
    mappingInfo trg src none none (some ['l']) = .ok lines ∧
    lines = ["l: [other] -> [u]".toList, [], "  [other]: matched 1 of 3 indexes".toList,
      "  [u]: matched 1 of 4 indexes".toList] :=
  ⟨Demo.src, run (Demo.ops.take 7) (Store.new ['u']), _, Demo.src_reachable, ⟨['u'], Demo.ops.take 7, by simp [Demo.ops], rfl⟩,
    by decide +kernel, ok_of_toOption (by decide +kernel), rfl⟩

theorem src'_reachable : Reachable Demo.src' := by
  refine ⟨Demo.other, Demo.srcOps ++ [.deleteIndex (.rows [(2, [Demo.ly])])], ?_⟩
  unfold Demo.src' Demo.src run
  rw [List.foldl_append]

/-- Violated: for a source without a file the description says that records do not exist any more in `None`. -/
theorem C119_violated_none : ∃ src trg lines, Reachable src ∧ ReachableFk trg ∧
    mappingInfo trg src none none (some ['l']) = .ok lines ∧
    "  Mapping contains 1 indexes that no longer exist in None".toList ∈ lines :=
  ⟨Demo.src', Demo.store, _, src'_reachable, Demo.reachableFk,
    ok_of_toOption (a := ["l: [other] -> [u]".toList, [], "  [other]: matched 2 of 2 indexes".toList,
      "  [u]: matched 4 of 4 indexes".toList, [], "  Mapping contains 1 indexes that no longer exist in None".toList])
      (by decide +kernel), by simp⟩

/-- A history with a mapping to a record that does not exist, and without a mapping to a record that does. -/
def maskedOps : List Op :=
  Demo.ops.take 7 ++ [.reopen, .insertMappings2 Demo.other none
    [⟨1, 10, 1, [], some [0xC0#8]⟩, ⟨2, 30, 2, [], some [0xC0#8]⟩, ⟨2, 5, 99, [], some [0xC0#8]⟩]]

/-- Violated: in a dataspace that was opened from a file a mapping to a record that does not exist is accepted, and it hides that
a record is not reached: the mapping is called verified. -/
theorem C119_violated_verified : ∃ src trg ms, Reachable src ∧ Reachable trg ∧ mappingLog trg src ['l'] = .ok ms ∧
    .verified ∈ ms ∧ ∃ i ∈ trg.ids, i ≠ 0 ∧ ∀ m ∈ trg.maps, m.index ≠ i :=
  ⟨Demo.src, run maskedOps (Store.new ['u']), [.verified], Demo.src_reachable, ⟨_, _, rfl⟩,
    ok_of_toOption (by decide +kernel), by simp, 3, by decide +kernel, by decide, by decide +kernel⟩

end Toron.MappingInfo
