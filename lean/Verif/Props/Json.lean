/-
C98: what is stored as JSON is read back unchanged.
-/
import Verif.Lemmas.Json

namespace Toron.Json

open Toron.Space (Attrs canonAttrs)

/-! ### Reading what was written -/

/-- A value without floats whose texts are plain is read back as it was written: every text, whatever quotes, backslashes,
control characters or characters beyond ASCII are in it, every integer, every nested list and dictionary. Missing: floats,
and see `C98_surrogates_violated`, `C98_keys_violated`. -/
theorem C98_read_back_partial {v : Val} (h : v.Ok) : loads (dumps v) = some v := loads_dumps h

/-- Different values are written differently. -/
theorem C98_different {v w : Val} (hv : v.Ok) (hw : w.Ok) (h : v ≠ w) : dumps v ≠ dumps w := by
  intro e
  apply h
  have := loads_dumps hv
  rw [e, loads_dumps hw] at this
  exact (Option.some.inj this).symm

/-- Every text of Unicode characters can be written. -/
theorem C98_text (s : Toron.Selectors.PyStr) : loads (dumps (.str (ofStr s))) = some (.str (ofStr s)) :=
  loads_dumps (by rw [Val.Ok]; exact ofStr_plain s)

/-- With sorted keys the dictionary that is read has the same items, at every level. -/
theorem C98_sorted {v : Val} (h : v.Ok) : ∃ w, loads (dumpsSorted v) = some w ∧ Same w v :=
  ⟨sortKeys v, loads_dumps (sortKeys_ok v h), fun p => sortKeys_same p v h⟩

/-- Only printable ASCII characters are written: no line end, no NUL, nothing that depends on the encoding. -/
theorem C98_ascii {v : Val} (h : v.Ok) : (∀ c ∈ dumps v, 32 ≤ c ∧ c ≤ 126) ∧ ∀ c ∈ dumpsSorted v, 32 ≤ c ∧ c ≤ 126 :=
  ⟨dumps_ascii v h, dumps_ascii _ (sortKeys_ok v h)⟩

/-- A dictionary with a dictionary and a list in it, a quote and a character beyond the first plane. -/
def sample : Val := .obj [([98], .arr [.int (-12), .null, .bool true]), ([97, 34], .obj [([0x1F600], .str [10, 228])])]

example : sample.Ok := by
  simp only [sample, Val.Ok, OkPairs, OkList, and_true, true_and]
  have key : ∀ c, c < 0xD800 ∨ (0xE000 ≤ c ∧ c < 0x110000) → Plain [c] := by
    intro c hc
    refine ⟨by simp; omega, ?_⟩
    intro a h l b e
    have := congrArg List.length e
    simp at this
    omega
  have key2 : ∀ c d, c < 0xD800 → d < 0xD800 → Plain [c, d] := by
    intro c d hc hd
    refine ⟨by simp; omega, ?_⟩
    intro a h l b e
    have : h ∈ [c, d] := by rw [e]; simp
    simp at this
    omega
  exact ⟨by decide, key _ (by decide), key2 _ _ (by decide) (by decide), by decide, key _ (by decide),
    key2 _ _ (by decide) (by decide)⟩

/-- `{"a\"": {"😀": "\nä"}, "b": [-12, null, true]}` -/
example : dumpsSorted sample = ("{\"a\\\"\": {\"\\ud83d\\ude00\": \"\\n\\u00e4\"}, \"b\": [-12, null, true]}".toList.map Char.toNat) := by
  decide +kernel

/-! ### Attributes -/

/-- A dictionary of attributes is read back with its items in the order of the keys. -/
theorem C98_attributes {a : Attrs} (h : (a.map (·.1)).Nodup) : loads (dumpsSorted (ofAttrs a)) = some (ofAttrs (canonAttrs a)) := by
  unfold dumpsSorted
  have := sortKeys_ok _ (ofAttrs_ok h)
  rw [sortKeys_ofAttrs] at this ⊢
  exact loads_dumps this

/-- The written texts of two dictionaries of attributes are the same exactly if the dictionaries have the same items. So the
database's test that the texts are different (`UNIQUE (attributes)`) is a test that the dictionaries are different. -/
theorem C98_attributes_equal {a b : Attrs} (ha : (a.map (·.1)).Nodup) (hb : (b.map (·.1)).Nodup) :
    dumpsSorted (ofAttrs a) = dumpsSorted (ofAttrs b) ↔ a.Perm b := by
  constructor
  · intro e
    have h1 := C98_attributes ha
    rw [e, C98_attributes hb] at h1
    have h2 := ofAttrs_inj (Option.some.inj h1)
    have ea : (canonAttrs a).Perm a := sortedBy_perm _ _
    have eb : (canonAttrs b).Perm b := sortedBy_perm _ _
    rw [h2] at eb
    exact ea.symm.trans eb
  · intro h
    unfold dumpsSorted
    rw [sortKeys_ofAttrs, sortKeys_ofAttrs, Toron.Space.canonAttrs_congr ha h]

example : ([(['b'], ['1']), (['a'], ['"', '\\'])] : Attrs).map (·.1) = [['b'], ['a']] ∧
    ([(['b'], ['1']), (['a'], ['"', '\\'])] : Attrs).Perm [(['a'], ['"', '\\']), (['b'], ['1'])] := ⟨rfl, .swap _ _ _⟩

/-! ### Checks -/

/-- What the program writes passes the database's own checks. -/
theorem C98_check :
    (∀ l : List Toron.Selectors.PyStr, checkSelectors (dumps (.arr (l.map fun s => .str (ofStr s)))) = true) ∧
    (∀ a : Attrs, (a.map (·.1)).Nodup → checkAttributes (dumpsSorted (ofAttrs a)) = true) ∧
    (∀ l, (Val.obj l).Ok → checkUserProperties (dumps (.obj l)) = true) ∧
    ∀ v : Val, v.Ok → checkPropertyValue (dumps v) = true := by
  refine ⟨fun l => ?_, fun a ha => ?_, fun l hl => ?_, fun v hv => ?_⟩
  · have : (Val.arr (l.map fun s => .str (ofStr s))).Ok := by
      rw [Val.Ok, okList_iff]
      intro v hv
      obtain ⟨s, -, rfl⟩ := List.mem_map.1 hv
      rw [Val.Ok]
      exact ofStr_plain s
    unfold checkSelectors
    rw [loads_dumps this]
    simp
  · unfold checkAttributes
    rw [C98_attributes ha]
    simp [ofAttrs]
  · unfold checkUserProperties
    rw [loads_dumps hl]
  · unfold checkPropertyValue
    rw [loads_dumps hv]
    rfl

/-- A text that passes the check for attributes is a dictionary of texts, whoever wrote it; other values that the program
could write do not pass. -/
theorem C98_check_only {v : Val} (h : v.Ok) (hc : checkAttributes (dumps v) = true) :
    ∃ l : List (Text × Text), v = .obj (l.map fun kv => (kv.1, .str kv.2)) := by
  unfold checkAttributes at hc
  rw [loads_dumps h] at hc
  cases v with
  | obj l =>
    refine ⟨l.map fun kv => (kv.1, match kv.2 with | .str s => s | _ => []), ?_⟩
    rw [List.map_map]
    congr 1
    refine (List.map_id' l).symm.trans (List.map_congr_left fun kv hkv => ?_)
    have := (List.all_eq_true.1 hc) kv hkv
    obtain ⟨k, v⟩ := kv
    cases v <;> simp at this ⊢
  | _ => cases hc

/-! ### Keeping some of the keys -/

/-- `toron_json_object_keep`: with keys, the result has exactly the items of the dictionary with these keys, and is missing if
there is none; without keys it has all items. -/
theorem C98_keep {l : List (Text × Val)} (h : (Val.obj l).Ok) (keys : List Text) :
    (objectKeep (dumps (.obj l)) keys = .ok none ∧ keys ≠ [] ∧ (∀ k ∈ keys, k ∉ l.map (·.1))) ∨
    ∃ t m, objectKeep (dumps (.obj l)) keys = .ok (some t) ∧ loads t = some (.obj m) ∧
      (keys = [] ∨ ∃ k ∈ keys, k ∈ l.map (·.1)) ∧
      ∀ k p, ((Val.obj m).find (.inl k :: p)).map Val.shape =
        if keys = [] ∨ k ∈ keys then ((Val.obj l).find (.inl k :: p)).map Val.shape else none := by
  have hl := loads_dumps h
  rw [Val.Ok] at h
  have hread : ∀ d : List (Text × Val), (Val.obj d).Ok → ∃ m, loads (dumpsSorted (.obj d)) = some (.obj m) ∧
      ∀ k p, ((Val.obj m).find (.inl k :: p)).map Val.shape = ((Val.obj d).find (.inl k :: p)).map Val.shape := by
    intro d hd
    have e : sortKeys (.obj d) = .obj (sortItems (sortKeysPairs d)) := by rw [sortKeys]
    exact ⟨_, by rw [← e]; exact loads_dumps (sortKeys_ok _ hd), fun k p => by rw [← e]; exact sortKeys_same _ _ hd⟩
  unfold objectKeep
  rw [hl]
  dsimp only
  by_cases hk : keys = []
  · right
    rw [if_pos (by rw [hk]; rfl)]
    obtain ⟨m, h1, h2⟩ := hread l (by rw [Val.Ok]; exact h)
    exact ⟨_, m, rfl, h1, .inl hk, fun k p => by rw [if_pos (.inl hk)]; exact h2 k p⟩
  · rw [if_neg (by simpa using hk)]
    obtain ⟨h1, h2, h3⟩ := keep_sub h.1 keys rfl
    generalize dictOf _ = sub at h1 h2 h3 ⊢
    by_cases hs : sub = []
    · left
      refine ⟨by rw [if_pos (by rw [hs]; rfl)], hk, fun k hkk hkl => ?_⟩
      have := (h3 k).2 ⟨hkk, hkl⟩
      rw [hs] at this
      cases this
    · right
      rw [if_neg (by simpa using hs)]
      obtain ⟨m, e1, e2⟩ := hread sub (by
        rw [Val.Ok]
        exact ⟨h1, okPairs_iff.2 fun x hx => okPairs_iff.1 h.2 x (h2 x hx)⟩)
      obtain ⟨x, hx⟩ := List.exists_mem_of_ne_nil _ hs
      have hx3 := (h3 x.1).1 (List.mem_map_of_mem hx)
      refine ⟨_, m, rfl, e1, .inr ⟨x.1, hx3.1, hx3.2⟩, fun k p => ?_⟩
      rw [e2 k p]
      simp only [Val.find]
      by_cases hks : k ∈ sub.map (·.1)
      · rw [if_pos (.inr ((h3 k).1 hks).1)]
        obtain ⟨y, hy, rfl⟩ := List.mem_map.1 hks
        rw [find?_of_mem h1 hy, find?_of_mem h.1 (h2 y hy)]
      · rw [find?_none hks]
        split_ifs with hc
        · rw [find?_none fun hkl => hks ((h3 k).2 ⟨hc.resolve_left hk, hkl⟩)]
        · rfl

/-! ### What is not kept -/

/-- Two characters that are the halves of a pair are written like the one character that the pair means: the text read is
not the text written, and two different dictionaries of attributes are taken for the same. -/
theorem C98_surrogates_violated :
    loads (dumps (.str [0xD83D, 0xDE00])) = some (.str [0x1F600]) ∧
    dumpsSorted (.obj [([107], .str [0xD83D, 0xDE00])]) = dumpsSorted (.obj [([107], .str [0x1F600])]) := by
  constructor
  · have : dumps (.str [0xD83D, 0xDE00]) = dumps (.str [0x1F600]) := by decide +kernel
    rw [this]
    refine loads_dumps ?_
    rw [Val.Ok]
    exact ofStr_plain [Char.ofNat 0x1F600]
  · decide +kernel

/-- Keys of a dictionary that are not texts are read back as texts, and if the text is a key as well then one of the two
items is lost. -/
theorem C98_keys_violated :
    loads (dumpsDict [(.int 1, .int 5)]) = some (.obj [([49], .int 5)]) ∧
    loads (dumpsDict [(.int 1, .int 5), (.str [49], .int 6)]) = some (.obj [([49], .int 6)]) := by
  constructor
  · refine loads_dumps (v := .obj [([49], .int 5)]) ?_
    simp only [Val.Ok, OkPairs, and_true]
    exact ⟨by decide, ofStr_plain ['1']⟩
  · rfl

end Toron.Json
