/-
C100: `toron init` makes a new file and replaces none.
-/
import Verif.Spec.Init
import Verif.Props.Files
import Mathlib.Data.List.TakeWhile

namespace Toron.Files

open Toron.Selectors (PyStr isSpace)
open Toron.Space (Store)

theorem initStore (w : World) (d uid : PyStr) :
    ((w.create uid false).call w.spaces.length (.setDomain d)).1 =
      { w with spaces := w.spaces ++ [⟨uid, .memory (Space.step (.setDomain d) (Store.new uid)).1, none⟩] } := by
  have h : (w.create uid false).spaces[w.spaces.length]? = some ⟨uid, .memory (Store.new uid), none⟩ := by
    show (w.spaces ++ [_])[w.spaces.length]? = _
    rw [List.getElem?_concat_length]
    rfl
  unfold World.call
  rw [h]
  show (w.create uid false).set _ _ = _
  unfold World.set World.create World.add
  simp

/-- The domain is the one given; otherwise the name of the file without its extension. -/
theorem C100_domain (path : PyStr) (domain : Option PyStr) :
    (∀ d, domain = some d → d ≠ [] → initDomain path domain = d) ∧
    (domain.getD [] = [] → ∀ stem, IsStem (basename path) stem → initDomain path domain = stem) ∧
    (domain.getD [] = [] → (∀ stem, ¬ IsStem (basename path) stem) → initDomain path domain = basename path) := by
  have key : ∀ name stem : PyStr, IsStem name stem → splitRoot name = stem := by
    rintro name stem ⟨⟨ext, rfl, hext⟩, c, hc, hcd⟩
    unfold splitRoot
    have h1 : (stem ++ '.' :: ext).reverse.dropWhile (fun c => decide (c ≠ '.')) = '.' :: stem.reverse := by
      rw [List.reverse_append, List.reverse_cons, List.append_assoc, List.dropWhile_append_of_pos]
      · rfl
      · intro a ha
        have : a ≠ '.' := by
          rintro rfl
          exact hext (List.mem_reverse.1 ha)
        simpa using this
    rw [h1]
    show (if stem.reverse.any (fun c => decide (c ≠ '.')) then stem.reverse.reverse else _) = _
    rw [if_pos (List.any_eq_true.2 ⟨c, List.mem_reverse.2 hc, by simpa using hcd⟩), List.reverse_reverse]
  refine ⟨?_, ?_, ?_⟩
  · rintro d rfl hd
    exact if_neg hd
  · intro h stem hs
    unfold initDomain
    rw [if_pos h, key _ _ hs]
  · intro h hs
    unfold initDomain
    rw [if_pos h]
    generalize basename path = name at hs
    unfold splitRoot
    cases e : name.reverse.dropWhile fun c => decide (c ≠ '.') with
    | nil => rfl
    | cons x r =>
      show (if r.any (fun c => decide (c ≠ '.')) then r.reverse else name) = name
      by_cases hr : r.any (fun c => decide (c ≠ '.')) = true
      · exfalso
        obtain ⟨c, hc, hcd⟩ := List.any_eq_true.1 hr
        have hx : x = '.' := by
          have h1 := List.head_dropWhile_not (l := name.reverse) (fun c => decide (c ≠ '.')) (by rw [e]; simp)
          simp only [e, List.head_cons] at h1
          simpa using h1
        have h2 := List.takeWhile_append_dropWhile (p := fun c => decide (c ≠ '.')) (l := name.reverse)
        rw [e, hx] at h2
        refine hs r.reverse ⟨⟨(name.reverse.takeWhile fun c => decide (c ≠ '.')).reverse, ?_, ?_⟩, c, List.mem_reverse.2 hc, by simpa using hcd⟩
        · have h3 := congrArg List.reverse h2
          rw [List.reverse_reverse, List.reverse_append, List.reverse_cons, List.append_assoc] at h3
          exact h3.symm
        · intro hm
          have := List.mem_takeWhile_imp (List.mem_reverse.1 hm)
          simp at this
      · rw [if_neg hr]

example : IsStem ['a', '.', 'b', '.', 't'] ['a', '.', 'b'] := ⟨⟨['t'], rfl, by decide⟩, 'a', by decide, by decide⟩
example : initDomain ['d', '/', 'a', '.', 'b', '.', 't'] none = ['a', '.', 'b'] ∧ initDomain ['.', 't'] none = ['.', 't'] := by decide

/-- A file or directory of this name that exists, or a name of nothing but white space: the command fails and nothing
changes. -/
theorem C100_existing (w : World) (later : List Act) (path : PyStr) (domain : Option PyStr) (uid : PyStr)
    (h : (∃ f, w.files (absKey w.cwd path) = some f) ∨ (∃ b, w.dirs (absKey w.cwd path) = some b) ∨
      ∀ c ∈ basename path, isSpace c = true) : w.init later path domain uid = (w, false) := by
  unfold World.init
  refine if_neg ?_
  unfold World.initAllowed World.pathExists
  rcases h with ⟨f, h⟩ | ⟨b, h⟩ | h
  · simp [h]
  · simp [h]
  · have : (basename path).any (fun c => !isSpace c) = false := by
      rw [List.any_eq_false]
      intro c hc
      simp [h c hc]
    simp [this]

/-- Otherwise, if the directory may be written and no other program interferes, the command succeeds: the file then holds a
new, empty dataspace with the domain, and every other file is as before. The file can be opened. -/
theorem C100_created (w : World) (path : PyStr) (domain : Option PyStr) (uid : PyStr)
    (hname : ∃ c ∈ basename path, isSpace c = false) (hfile : w.files (absKey w.cwd path) = none)
    (hnod : w.dirs (absKey w.cwd path) = none) (hdir : w.dirs (absKey w.cwd path).dropLast = some true) :
    (w.init [] path domain uid).2 = true ∧
    (∃ s, (w.init [] path domain uid).1.stored (absKey w.cwd path) = some s ∧ s.uid = uid ∧
      s.getDomain = initDomain path domain ∧ SameData { s with domain := none } (Store.new uid) ∧
      ((w.init [] path domain uid).1.readFile path).2 = .ok ()) ∧
    ∀ k, k ≠ absKey w.cwd path → (w.init [] path domain uid).1.files k = w.files k := by
  have hallow : w.initAllowed path = true := by
    unfold World.initAllowed World.pathExists
    obtain ⟨c, hc, hs⟩ := hname
    have : (basename path).any (fun c => !isSpace c) = true := List.any_eq_true.2 ⟨c, hc, by simp [hs]⟩
    simp [this, hfile, hnod]
  let d := initDomain path domain
  let w1 : World := { w with spaces := w.spaces ++ [⟨uid, .memory (Space.step (.setDomain d) (Store.new uid)).1, none⟩] }
  have hl : w1.spaces[w.spaces.length]? = some ⟨uid, .memory (Space.step (.setDomain d) (Store.new uid)).1, none⟩ :=
    List.getElem?_concat_length ..
  have hdata : w1.data w.spaces.length = some (Space.step (.setDomain d) (Store.new uid)).1 := by
    unfold World.data
    rw [hl]
    rfl
  have hsave : w.initSave path domain uid = w1.save w.spaces.length path := by
    unfold World.initSave
    rw [initStore]
  have hok : (w1.save w.spaces.length path).2 = .ok () :=
    C87_save_succeeds w1 _ path (by rw [hdata]; rfl) hdir (by
      intro f hf
      rw [show w1.files (absKey w1.cwd path) = none from hfile] at hf
      cases hf) hnod
  have hinit : w.init [] path domain uid = ((w1.save w.spaces.length path).1, true) := by
    unfold World.init
    rw [if_pos hallow]
    show (match w.initSave path domain uid with | (w', .ok ()) => (w', true) | (w', .error _) => (w', false)) = _
    rw [hsave]
    rcases hp : w1.save w.spaces.length path with ⟨w2, r⟩
    rw [hp] at hok
    replace hok : r = .ok () := hok
    rw [hok]
  rw [hinit]
  obtain ⟨s, t, h1, h2, h3, h4, -, -, h5, -⟩ := C87_saved w1 _ path hok
  rw [hdata] at h1
  cases h1
  refine ⟨rfl, ⟨t, h3, ?_, ?_, ?_, h5⟩, h4⟩
  · exact (congrArg (·.uid) h2).symm
  · have := congrArg Store.getDomain h2
    exact this.symm
  · unfold SameData at h2 ⊢
    have := congrArg (fun s : Store => { s with domain := none }) h2
    exact this.symm

example : (Demo.world.init [] ['/', 'n', '.', 't'] none ['z']).2 = true :=
  (C100_created Demo.world ['/', 'n', '.', 't'] none ['z'] ⟨'n', by decide, by decide⟩ (by
    have : (Demo.world.files [['n', '.', 't']]).isNone = true := by decide +kernel
    exact Option.isNone_iff_eq_none.1 this) (by decide +kernel) (by decide +kernel)).1

example : (Demo.world.init [.save 1 ['/', 'n']] ['/', 'x'] none ['z']).2 = false := by decide +kernel

/-- Whatever other programs do in between: if the command fails it has changed no file. -/
theorem C100_failed (w : World) (later : List Act) (path : PyStr) (domain : Option PyStr) (uid : PyStr)
    (h : (w.init later path domain uid).2 = false) :
    (w.init later path domain uid).1.files = w.files ∨ (w.init later path domain uid).1.files = (w.run later).files := by
  unfold World.init at h ⊢
  by_cases ha : w.initAllowed path = true
  · rw [if_pos ha] at h ⊢
    right
    unfold World.initSave at h ⊢
    rw [initStore] at h ⊢
    generalize hw : ({ w.run later with spaces := _ } : World) = w1 at h ⊢
    have hfiles : w1.files = (w.run later).files := by rw [← hw]
    have := C87_failed w1 (w.run later).spaces.length path .ro []
    rcases hp : w1.save (w.run later).spaces.length path with ⟨w2, r⟩
    rw [hp] at h this
    cases r with
    | ok u => cases h
    | error e =>
      show w2.files = _
      rw [← hfiles, show w2 = w1 from this.1 (by intro hh; cases hh)]
  · rw [if_neg ha]
    exact Or.inl rfl

/-- Violated: the command looks first and saves later. A file that another program has made in between is replaced, although
the command never replaces a file that it sees. Here another program saves the dataspace b as `/n` in between. -/
theorem C100_race_violated :
    (Demo.world.files [['n']]).isNone = true ∧
    ((Demo.world.run [.save 1 ['/', 'n']]).stored [['n']]).map (·.uid) = some ['b'] ∧
    (Demo.world.init [.save 1 ['/', 'n']] ['/', 'n'] none ['z']).2 = true ∧
    ((Demo.world.init [.save 1 ['/', 'n']] ['/', 'n'] none ['z']).1.stored [['n']]).map (·.uid) = some ['z'] := by
  decide +kernel

end Toron.Files
