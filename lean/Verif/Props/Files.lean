/-
C87: what happens to dataspaces and files.
-/
import Verif.Lemmas.Files

namespace Toron.Files

open Toron.Selectors (PyStr)
open Toron.Space (Store)

/-! ### Demonstrations -/

namespace Demo

/-- A machine with the directory `/`, that may be written, and nothing in it. -/
def empty : World :=
  { files := fun _ => none, dirs := fun k => if k = [] then some true else none, cwd := [], spaces := [] }

theorem fresh : empty.Fresh := ⟨rfl, fun _ => rfl⟩

/-- Two dataspaces are made, saved as `/x` and `/backup-x`, and the files are bound. -/
def acts : List Act :=
  [.create ['a'] false, .save 0 ['/', 'x'], .create ['b'] false, .save 1 (backupPath ['/', 'x']),
   .bind ['/', 'x'] .rw [], .bind (backupPath ['/', 'x']) .rw []]

def world : World := empty.run acts

theorem made : world.Made := ⟨empty, acts, fresh, rfl⟩

end Demo

/-! ### Saving -/

/-- Saving a dataspace succeeds when its directory may be written, a file that is already there may be written too, and
there is no directory of that name. -/
theorem C87_save_succeeds (w : World) (i : Nat) (path : PyStr) (hd : (w.data i).isSome)
    (hdir : w.dirs (absKey w.cwd path).dropLast = some true)
    (hro : ∀ f, w.files (absKey w.cwd path) = some f → f.writable = true)
    (hno : w.dirs (absKey w.cwd path) = none) : (w.save i path).2 = .ok () := by
  unfold World.data at hd
  unfold World.save
  cases hi : w.spaces[i]? with
  | none => rw [hi] at hd; simp at hd
  | some h =>
    rw [hi] at hd
    dsimp only
    rw [if_neg (by simp [hdir]), if_neg]
    · obtain ⟨s, hs⟩ := Option.isSome_iff_exists.1 hd
      change w.shown h = some s at hs
      rw [hs]
      dsimp only
      rw [if_neg (by simp [hno])]
    · cases hf : w.files (absKey w.cwd path) with
      | none => simp
      | some f => simp [hro f hf]

example : (Demo.world.save 0 ['x']).2 = .ok () :=
  C87_save_succeeds _ _ _ (by decide +kernel) (by decide +kernel) (by intro f h; exact (by
    have : ((Demo.world.files [['x']]).map (·.writable)) = some true := by decide +kernel
    rw [show Demo.world.files [['x']] = some f from h] at this
    simpa using this)) (by decide +kernel)

/-- When saving succeeds the file holds the data; no other file, no directory and no dataspace in memory is changed.
Reading the file, and binding it in any mode, then gives a dataspace with the same data and the same identity. -/
theorem C87_saved (w : World) (i : Nat) (path : PyStr) (h : (w.save i path).2 = .ok ()) :
    ∃ s t, w.data i = some s ∧ SameData s t ∧
      (w.save i path).1.stored (absKey w.cwd path) = some t ∧
      (∀ k, k ≠ absKey w.cwd path → (w.save i path).1.files k = w.files k) ∧
      (w.save i path).1.dirs = w.dirs ∧
      (∀ j, w.inMemory j → (w.save i path).1.data j = w.data j) ∧
      ((w.save i path).1.readFile path).2 = .ok () ∧
      ((w.save i path).1.readFile path).1.data w.spaces.length = some t ∧
      ∀ mode uid, ((w.save i path).1.bindFile path mode uid).2 = .ok () ∧
        ((w.save i path).1.bindFile path mode uid).1.data w.spaces.length = some t ∧
        (((w.save i path).1.bindFile path mode uid).1.spaces[w.spaces.length]?).map (·.uid) = some s.uid := by
  obtain ⟨f1, f2, f3, f4, f5⟩ := save_frame w i path
  obtain ⟨hd, s, h1, h2, h3⟩ := save_ok h
  have hf : (w.save i path).1.files (absKey w.cwd path) = some ⟨.space (closed s), true⟩ := by
    rw [h3]
    change (w.put _ _).files _ = _
    rw [put_files, if_pos rfl]
  have hs : (w.save i path).1.stored (absKey w.cwd path) = some (closed s) := by
    unfold World.stored; rw [hf]
  refine ⟨s, closed s, by unfold World.data; rw [h1]; exact h2, rfl, hs, f3, f2, ?_, ?_, ?_, ?_⟩
  · rintro j ⟨hj, sj, hj1, hj2⟩
    obtain ⟨h', a1, a2, a3, _⟩ := save_handle w i path hj1
    unfold World.data
    rw [a1, hj1]
    change (w.save i path).1.shown h' = w.shown hj
    unfold World.shown
    rw [a3, hj2]
  · unfold World.readFile
    rw [f1, hf]
  · unfold World.readFile World.data
    rw [f1, hf]
    change ((w.save i path).1.spaces ++ [_])[w.spaces.length]?.bind _ = _
    rw [← f5, List.getElem?_concat_length]
    rfl
  · intro mode uid
    have hb : (w.save i path).1.bindFile path mode uid =
        ((w.save i path).1.add ⟨s.uid, .bound (absKey w.cwd path) mode, some path⟩, .ok ()) := by
      unfold World.bindFile
      dsimp only
      rw [f1, hf]
      simp only [Bool.true_eq_false, and_false, if_false]
      rfl
    rw [hb]
    have hl : ((w.save i path).1.add ⟨s.uid, .bound (absKey w.cwd path) mode, some path⟩).spaces[w.spaces.length]? =
        some ⟨s.uid, .bound (absKey w.cwd path) mode, some path⟩ := by
      change ((w.save i path).1.spaces ++ [_])[w.spaces.length]? = _
      rw [← f5, List.getElem?_concat_length]
    refine ⟨rfl, ?_, ?_⟩
    · unfold World.data
      rw [hl]
      exact hs
    · rw [hl]; rfl

example : (Demo.world.save 1 ['.', '/', 'y']).2 = .ok () ∧
    ((Demo.world.save 1 ['.', '/', 'y']).1.stored [['y']]).map (·.uid) = some ['b'] := by decide +kernel

/-- When saving, reading or binding fails, nothing is changed. -/
theorem C87_failed (w : World) (i : Nat) (path : PyStr) (mode : Mode) (uid : PyStr) :
    ((w.save i path).2 ≠ .ok () → (w.save i path).1 = w) ∧
    ((w.readFile path).2 ≠ .ok () → (w.readFile path).1 = w) ∧
    ((w.bindFile path mode uid).2 ≠ .ok () → (w.bindFile path mode uid).1 = w) := by
  refine ⟨fun h => ?_, fun h => ?_, fun h => ?_⟩
  · cases hr : (w.save i path).2 with
    | error e => exact save_error hr
    | ok u => exact absurd hr h
  · rcases readFile_cases w path with ⟨e, he⟩ | ⟨s, _, he⟩
    · rw [he]
    · rw [he] at h; exact absurd rfl h
  · rcases bindFile_cases w path mode uid with ⟨e, he⟩ | ⟨s, _, he⟩ | ⟨_, _, he⟩
    · rw [he]
    · rw [he] at h; exact absurd rfl h
    · rw [he] at h; exact absurd rfl h

example : (Demo.world.save 0 ['/', 'q', '/', 'x']).2 = .error .permission := by decide +kernel

/-! ### What actions touch -/

/-- A file is changed only by saving to it, by a backup that has its name, by a call on an object that is bound to it and
not read-only, and by binding it when it does not exist. -/
theorem C87_untouched (w : World) (a : Act) (hb : ∀ is, a = .backup is → is.Nodup) (k : Key)
    (hk : ¬ w.mayWrite k a) : (w.act a).1.files k = w.files k := act_files w a hb k hk

example : ¬ Demo.world.mayWrite [['x']] (.call 3 (.setDomain [])) := by
  rintro (⟨h, h1, h2⟩ | ⟨h, h1, h2⟩) <;>
  · have e : Demo.world.spaces[3]? = some ⟨['b'], .bound [['b', 'a', 'c', 'k', 'u', 'p', '-', 'x']] .rw,
      some (backupPath ['/', 'x'])⟩ := rfl
    rw [e] at h1
    injection h1 with h1
    subst h1
    simp at h2

/-- The data of an object changes only by calls on it, or, when it is bound to a file, by an action that may write the
file. -/
theorem C87_unaffected (w : World) (a : Act) (hb : ∀ is, a = .backup is → is.Nodup) (j : Nat)
    (hj : j < w.spaces.length) (hm : w.inMemory j → ∀ op, a ≠ .call j op)
    (hf : ∀ k m, w.boundTo j k m → ¬ w.mayWrite k a) : (w.act a).1.data j = w.data j := by
  have hs := List.getElem?_eq_getElem hj
  generalize w.spaces[j] = h at hs
  obtain ⟨h', h1, _, h3⟩ := act_handle w a hs
  have hp : h'.place = h.place := by
    cases hpl : h.place with
    | memory s => rw [h3 (.inl (hm ⟨h, s, hs, hpl⟩)), hpl]
    | bound k m => rw [h3 (.inr ⟨k, m, hpl⟩), hpl]
  unfold World.data
  rw [h1, hs]
  change (w.act a).1.shown h' = w.shown h
  have : (w.act a).1.shown h' = (w.act a).1.shown h := by unfold World.shown; rw [hp]
  rw [this]
  exact shown_eq h fun k m hk => act_files w a hb k (hf k m ⟨h, hs, hk⟩)

example : (Demo.world.act (.call 3 (.setDomain []))).1.data 0 = Demo.world.data 0 :=
  C87_unaffected _ _ (by simp) _ (by decide +kernel) (by simp) (by
    rintro k m ⟨h, h1, h2⟩
    have e : Demo.world.spaces[0]? = some ⟨['a'], .memory (Store.new ['a']), some ['/', 'x']⟩ := rfl
    rw [e] at h1
    injection h1 with h1
    subst h1
    simp at h2)

/-- A call on an object has the effect of the call on its data, and every object bound to the same file has the new data.
-/
theorem C87_call (w : World) (i : Nat) (op : Space.Op) (s : Store) (hs : w.data i = some s)
    (hr : ∀ k, ¬ w.boundTo i k .ro) :
    (w.call i op).2 = (Space.step op s).2.mapError .call ∧
    (w.call i op).1.data i = some (Space.step op s).1 ∧
    ∀ k m, w.boundTo i k m → ∀ j m', w.boundTo j k m' → (w.call i op).1.data j = some (Space.step op s).1 := by
  obtain ⟨h, h1, h2⟩ : ∃ h, w.spaces[i]? = some h ∧ w.shown h = some s := by
    unfold World.data at hs
    cases hi : w.spaces[i]? with
    | none => rw [hi] at hs; simp at hs
    | some h => rw [hi] at hs; exact ⟨h, rfl, hs⟩
  have hlt := (List.getElem?_eq_some_iff.1 h1).1
  unfold World.shown at h2
  cases hp : h.place with
  | memory s0 =>
    rw [hp] at h2
    injection h2 with h2
    subst h2
    have he : w.call i op = (w.set i { h with place := .memory (Space.step op s0).1 },
        (Space.step op s0).2.mapError .call) := by
      unfold World.call
      rw [h1]
      dsimp only
      rw [hp]
    rw [he]
    refine ⟨rfl, ?_, ?_⟩
    · unfold World.data
      rw [set_handle w i _ h1, if_pos rfl]
      rfl
    · rintro k m ⟨h', a1, a2⟩
      rw [h1] at a1
      injection a1 with a1
      rw [← a1, hp] at a2
      cases a2
  | bound k m =>
    rw [hp] at h2
    change w.stored k = some s at h2
    have hm : m ≠ .ro := fun e => hr k ⟨h, h1, e ▸ hp⟩
    obtain ⟨b, hb⟩ : ∃ b, w.files k = some ⟨.space s, b⟩ := by
      unfold World.stored at h2
      rcases hf : w.files k with _ | ⟨c, b⟩
      · rw [hf] at h2; simp at h2
      · cases c with
        | other => rw [hf] at h2; simp at h2
        | space s0 =>
          rw [hf] at h2
          injection h2 with h2
          exact ⟨b, by rw [h2]⟩
    have he : w.call i op = (w.put k ⟨.space (Space.step op s).1, b⟩, (Space.step op s).2.mapError .call) := by
      unfold World.call
      rw [h1]
      dsimp only
      rw [hp]
      dsimp only
      rw [hb]
      dsimp only
      rw [if_neg hm]
    have hall : ∀ j m', w.boundTo j k m' → (w.call i op).1.data j = some (Space.step op s).1 := by
      rintro j mj ⟨hj, c1, c2⟩
      rw [he]
      unfold World.data
      change (w.spaces[j]?).bind _ = _
      rw [c1]
      change (w.put k _).shown hj = _
      unfold World.shown
      rw [c2]
      unfold World.stored
      dsimp only
      rw [put_files, if_pos rfl]
    refine ⟨by rw [he], hall i m ⟨h, h1, hp⟩, ?_⟩
    rintro k' m' ⟨h', a1, a2⟩
    rw [h1] at a1
    injection a1 with a1
    rw [← a1, hp] at a2
    injection a2 with a2
    exact a2 ▸ hall

/-- The objects 0 (in memory) and 2 (bound) have the same data; a call on 2 changes 2 and not 0. -/
example : ((Demo.world.call 2 (.setDomain ['d'])).1.data 2).map (·.domain) ≠ (Demo.world.data 2).map (·.domain) ∧
    ((Demo.world.call 2 (.setDomain ['d'])).1.data 0).map (·.domain) = (Demo.world.data 0).map (·.domain) := by
  decide +kernel

/-! ### What is always so -/

/-- Whatever programs do with dataspaces and files, each object has data, all data in objects and files comes from calls on
a new dataspace, so that everything that is proved about such data holds of it, and objects with data in memory report
the identity of the data. -/
theorem C87_covered (w : World) (hw : w.Made) :
    (∀ k s, w.stored k = some s → Space.Reachable s) ∧
    ∀ i, ∀ h, w.spaces[i]? = some h → ∃ s, w.data i = some s ∧ Space.Reachable s ∧ (w.inMemory i → h.uid = s.uid) := by
  have hi := inv_of_made hw
  refine ⟨hi.stored, fun i h hh => ?_⟩
  obtain ⟨s, h1, h2, h3⟩ := hi.spaces i h hh
  refine ⟨s, by unfold World.data; rw [hh]; exact h1, h2, ?_⟩
  rintro ⟨h', s', a1, a2⟩
  rw [hh] at a1
  injection a1 with a1
  subst a1
  unfold World.shown at h1
  rw [a2] at h1
  injection h1 with h1
  exact h1 ▸ h3 s' a2

example : Demo.world.Made ∧ Demo.world.spaces.length = 4 := ⟨Demo.made, rfl⟩

/-- An object that is bound to a file keeps reporting the identity of the data as long as nothing is saved to the file: all
other actions keep this. -/
theorem C87_id_partial (w : World) (hw : w.Made) (a : Act) (hb : ∀ is, a = .backup is → is.Nodup) (i : Nat) (k : Key)
    (m : Mode) (hk : w.boundTo i k m) (hid : (w.spaces[i]?).map (·.uid) = (w.data i).map (·.uid))
    (hs : ∀ j path, a = .save j path → absKey w.cwd path ≠ k)
    (hbk : ∀ is, a = .backup is → ∀ j ∈ is, w.backupKey j ≠ some k) :
    ((w.act a).1.spaces[i]?).map (·.uid) = ((w.act a).1.data i).map (·.uid) := by
  obtain ⟨h, h1, h2⟩ := hk
  have hi := inv_of_made hw
  obtain ⟨s, b1, b2, _⟩ := hi.spaces i h h1
  have hds : w.data i = some s := by unfold World.data; rw [h1]; exact b1
  have hst : w.stored k = some s := by unfold World.shown at b1; rw [h2] at b1; exact b1
  obtain ⟨h', a1, a2, a3⟩ := act_handle w a h1
  have hp := a3 (.inr ⟨k, m, h2⟩)
  rw [h1, hds] at hid
  have huid : h.uid = s.uid := by simpa using hid
  have key : ((w.act a).1.stored k).map (·.uid) = some s.uid := by
    by_cases hmw : w.mayWrite k a
    · cases a with
      | create | read | setHint | chdir => exact absurd hmw (by simp [World.mayWrite])
      | bind path mode uid =>
        obtain ⟨_, _, hn⟩ := hmw
        unfold World.stored at hst; rw [hn] at hst; simp at hst
      | save j path => exact absurd hmw (hs j path rfl)
      | backup is => obtain ⟨j, c1, c2⟩ := hmw; exact absurd c2 (hbk is rfl j c1)
      | call j op =>
        change ((w.call j op).1.stored k).map _ = _
        rcases call_cases w j op with ⟨e, he⟩ | ⟨h0, s', _, _, he⟩ | ⟨h0, k', m', s', wr, _, _, _, d4, he⟩
        · rw [he, hst]; rfl
        · rw [he]
          change (w.stored k).map _ = _
          rw [hst]; rfl
        · rw [he]
          by_cases hkk : k = k'
          · subst hkk
            have : s' = s := by
              unfold World.stored at hst
              rw [d4] at hst
              injection hst
            subst this
            unfold World.stored
            dsimp only
            rw [put_files, if_pos rfl]
            change some (Space.step op s').1.uid = _
            rw [step_uid b2 op]
          · unfold World.stored
            dsimp only
            rw [put_files, if_neg hkk]
            change (w.stored k).map _ = _
            rw [hst]; rfl
    · rw [stored_eq (act_files w a hb k hmw), hst]; rfl
  unfold World.data
  rw [a1]
  change some h'.uid = ((w.act a).1.shown h').map _
  unfold World.shown
  rw [hp, h2, a2, huid]
  exact key.symm

example : Demo.world.boundTo 3 [['b', 'a', 'c', 'k', 'u', 'p', '-', 'x']] .rw := ⟨_, rfl, rfl⟩

/-- Violated: an object that is bound to a file reports the identity that it read when it was made. When another dataspace
has been saved to the file, the object shows the data of that dataspace with the identity of the former one. -/
theorem C87_violated_id : ∃ w : World, w.Made ∧ ∃ i h s, w.spaces[i]? = some h ∧ w.data i = some s ∧ h.uid ≠ s.uid := by
  refine ⟨Demo.empty.run (Demo.acts ++ [.save 1 ['/', 'x']]), ⟨_, _, Demo.fresh, rfl⟩, 2, _, _, rfl, rfl, ?_⟩
  decide +kernel

/-! ### Opening -/

/-- A file can be read when it holds a dataspace. It can be bound when it holds a dataspace and may be written or is bound
read-only, and created by binding when it does not exist, the mode allows it, and its path names a directory that may be
written. The new object has the path as its hint. -/
theorem C87_open (w : World) (path : PyStr) (mode : Mode) (uid : PyStr) :
    ((w.readFile path).2 = .ok () ↔ (w.stored (absKey w.cwd path)).isSome) ∧
    ((w.bindFile path mode uid).2 = .ok () ↔
      (∃ s b, w.files (absKey w.cwd path) = some ⟨.space s, b⟩ ∧ (mode = .ro ∨ b = true)) ∨
      (w.files (absKey w.cwd path) = none ∧ mode = .rwc ∧ dirname path ≠ [] ∧
        w.dirs (absKey w.cwd (dirname path)) = some true)) ∧
    ((w.readFile path).2 = .ok () → ((w.readFile path).1.spaces[w.spaces.length]?).map (·.hint) = some (some path)) ∧
    ((w.bindFile path mode uid).2 = .ok () →
      ((w.bindFile path mode uid).1.spaces[w.spaces.length]?).map (·.hint) = some (some path)) := by
  refine ⟨?_, ?_, ?_, ?_⟩
  · unfold World.readFile World.stored
    rcases hf : w.files (absKey w.cwd path) with _ | ⟨c, b⟩
    · simp
    · cases c <;> simp
  · unfold World.bindFile
    dsimp only
    rcases hf : w.files (absKey w.cwd path) with _ | ⟨c, b⟩
    · cases mode <;> by_cases h1 : dirname path = [] <;>
        by_cases h2 : w.dirs (absKey w.cwd (dirname path)) = some true <;> simp [h1, h2]
    · cases c <;> cases mode <;> cases b <;> simp
  · intro h
    rcases readFile_cases w path with ⟨e, he⟩ | ⟨s, _, he⟩
    · rw [he] at h; simp at h
    · rw [he]
      change ((w.spaces ++ [_])[w.spaces.length]?).map _ = _
      rw [List.getElem?_concat_length]; rfl
  · intro h
    rcases bindFile_cases w path mode uid with ⟨e, he⟩ | ⟨s, _, he⟩ | ⟨_, _, he⟩
    · rw [he] at h; simp at h
    · rw [he]
      change ((w.spaces ++ [_])[w.spaces.length]?).map _ = _
      rw [List.getElem?_concat_length]; rfl
    · rw [he]
      change ((w.spaces ++ [_])[w.spaces.length]?).map _ = _
      rw [List.getElem?_concat_length]; rfl

example : (Demo.world.bindFile ['/', 'n'] .rwc ['u']).2 = .ok () ∧ (Demo.world.readFile ['x']).2 = .ok () := by
  decide +kernel

theorem save_hint (w : World) (i : Nat) (path : PyStr) {j : Nat} {h : Handle} {p : PyStr} (hj : w.spaces[j]? = some h)
    (hp : h.hint = some p) (hne : p ≠ []) :
    ∃ h', (w.save i path).1.spaces[j]? = some h' ∧ h'.hint = some p := by
  rcases save_cases w i path with ⟨e, he⟩ | ⟨hd, s, h1, h2, h3⟩
  · rw [he]; exact ⟨h, hj, hp⟩
  · rw [h3]
    refine ⟨_, set_handle (w.put _ _) i _ hj, ?_⟩
    by_cases hij : i = j
    · subst hij
      rw [hj] at h1
      injection h1 with h1
      subst h1
      rw [if_pos rfl, hp]
      simp [hne]
    · rw [if_neg hij]; exact hp

theorem backup_hint (is : List Nat) : ∀ (w : World) {j : Nat} {h : Handle} {p : PyStr}, w.spaces[j]? = some h →
    h.hint = some p → p ≠ [] → ∃ h', (w.backup is).1.spaces[j]? = some h' ∧ h'.hint = some p := by
  induction is with
  | nil => intro w j h p hj hp _; exact ⟨h, hj, hp⟩
  | cons i is ih =>
    intro w j h p hj hp hne
    rw [World.backup]
    cases hi : w.spaces[i]? with
    | none => exact ⟨h, hj, hp⟩
    | some hd =>
      dsimp only
      cases hh : hd.hint with
      | none => exact ⟨h, hj, hp⟩
      | some q =>
        dsimp only
        obtain ⟨h1, a1, a2⟩ := save_hint w i (backupPath q) hj hp hne
        rcases hsv : w.save i (backupPath q) with ⟨w', r⟩
        rw [hsv] at a1
        cases r with
        | error e => exact ⟨h1, a1, a2⟩
        | ok u => exact ih w' a1 a2 hne

/-- The path hint is the first known path: once there is one it stays, whatever is done, unless it is overwritten by hand;
an object without one gets it from the first save. -/
theorem C87_hint (w : World) (j : Nat) (h : Handle) (hj : w.spaces[j]? = some h) :
    (∀ p, h.hint = some p → p ≠ [] → ∀ a, (∀ q, a ≠ .setHint j q) →
      ∃ h', (w.act a).1.spaces[j]? = some h' ∧ h'.hint = some p) ∧
    (h.hint = none → ∀ path, (w.save j path).2 = .ok () →
      ∃ h', (w.save j path).1.spaces[j]? = some h' ∧ h'.hint = some path) := by
  constructor
  · intro p hp hne a ha
    cases a with
    | create uid cache => exact ⟨h, add_handle w _ hj, hp⟩
    | read path =>
      change ∃ h', (w.readFile path).1.spaces[j]? = some h' ∧ _
      rcases readFile_cases w path with ⟨e, he⟩ | ⟨s, _, he⟩
      · rw [he]; exact ⟨h, hj, hp⟩
      · rw [he]; exact ⟨h, add_handle w _ hj, hp⟩
    | bind path mode uid =>
      change ∃ h', (w.bindFile path mode uid).1.spaces[j]? = some h' ∧ _
      rcases bindFile_cases w path mode uid with ⟨e, he⟩ | ⟨s, _, he⟩ | ⟨_, _, he⟩
      · rw [he]; exact ⟨h, hj, hp⟩
      · rw [he]; exact ⟨h, add_handle w _ hj, hp⟩
      · rw [he]; exact ⟨h, add_handle (w.put _ _) _ hj, hp⟩
    | call i op =>
      change ∃ h', (w.call i op).1.spaces[j]? = some h' ∧ _
      rcases call_cases w i op with ⟨e, he⟩ | ⟨h0, s, h1, h2, he⟩ | ⟨_, _, _, _, _, _, _, _, _, he⟩
      · rw [he]; exact ⟨h, hj, hp⟩
      · rw [he]
        refine ⟨_, set_handle w i _ hj, ?_⟩
        by_cases hij : i = j
        · subst hij
          rw [hj] at h1
          injection h1 with h1
          subst h1
          rw [if_pos rfl]; exact hp
        · rw [if_neg hij]; exact hp
      · rw [he]; exact ⟨h, hj, hp⟩
    | save i path => exact save_hint w i path hj hp hne
    | setHint i path =>
      have hij : i ≠ j := fun e => ha path (by rw [e])
      unfold World.act
      dsimp only
      cases hi : w.spaces[i]? with
      | none => exact ⟨h, hj, hp⟩
      | some h0 => exact ⟨_, set_handle w i _ hj, by rw [if_neg hij]; exact hp⟩
    | backup is => exact backup_hint is w hj hp hne
    | chdir path =>
      unfold World.act
      dsimp only
      split_ifs <;> exact ⟨h, hj, hp⟩
  · intro hn path hok
    obtain ⟨hd, s, h1, h2, h3⟩ := save_ok hok
    rw [h3]
    rw [hj] at h1
    injection h1 with h1
    subst h1
    refine ⟨_, set_handle (w.put _ _) j _ hj, ?_⟩
    rw [if_pos rfl, hn]
    rfl

example : ∃ h, Demo.world.spaces[2]? = some h ∧ h.hint = some ['/', 'x'] := ⟨_, rfl, rfl⟩

/-! ### Names without a directory -/

theorem dirname_name {b : PyStr} (hb : '/' ∉ b) : dirname b = [] := by
  have : (b.reverse.dropWhile fun c => decide (c ≠ '/')) = [] := by
    have : ∀ c ∈ b.reverse, c ≠ '/' := fun c hc e => hb (by rw [← e]; exact List.mem_reverse.1 hc)
    generalize b.reverse = l at this
    induction l with
    | nil => rfl
    | cons c t ih =>
      rw [List.dropWhile_cons_of_pos (by simp [this c List.mem_cons_self])]
      exact ih fun d hd => this d (List.mem_cons_of_mem _ hd)
  unfold dirname
  rw [this]
  simp

/-- Violated: a new file in the working directory cannot be made by binding it under its bare name; this is refused as a
missing permission, although saving to the same name succeeds. -/
theorem C87_violated_bare_name (w : World) (i : Nat) (name uid : PyStr) (hn : '/' ∉ name)
    (hnew : w.files (w.cwd ++ [name]) = none) (h0 : name ∉ [[], ['.'], ['.', '.']])
    (hdir : w.dirs w.cwd = some true) (hno : w.dirs (w.cwd ++ [name]) = none) (hd : (w.data i).isSome) :
    w.bindFile name .rwc uid = (w, .error .permission) ∧ (w.save i name).2 = .ok () := by
  have hk : absKey w.cwd name = w.cwd ++ [name] := by
    rw [absKey_name w.cwd name hn]
    simp only [List.mem_cons, List.not_mem_nil, or_false, not_or] at h0
    unfold enter
    rw [if_neg (by simp [h0.1, h0.2.1]), if_neg h0.2.2]
  constructor
  · unfold World.bindFile
    dsimp only
    rw [hk, hnew, dirname_name hn]
    simp
  · refine C87_save_succeeds w i name hd ?_ ?_ ?_
    · rw [hk, List.dropLast_concat]; exact hdir
    · rw [hk, hnew]; simp
    · rw [hk]; exact hno

example : Demo.world.bindFile ['n'] .rwc ['u'] = (Demo.world, .error .permission) :=
  (C87_violated_bare_name _ 0 _ _ (by decide) rfl (by decide) rfl rfl (by decide +kernel)).1

/-! ### Backups -/

/-- The backup of a dataspace is written next to the file it came from, with `backup-` before the name; it is never the
same file. (A relative path means the directory that is the working directory when the backup is made.) -/
theorem C87_backup_beside (w : World) (i : Nat) (h : Handle) (p : PyStr) (hi : w.spaces[i]? = some h)
    (hp : h.hint = some p) (hb : basename p ∉ [[], ['.'], ['.', '.']]) :
    ∃ d b, absKey w.cwd p = d ++ [b] ∧ w.backupKey i = some (d ++ [backupName b]) ∧
      w.backupKey i ≠ some (absKey w.cwd p) := by
  simp only [List.mem_cons, List.not_mem_nil, or_false, not_or] at hb
  have h1 : absKey w.cwd p = absKey w.cwd (dirname p) ++ [basename p] := by
    rw [absKey_split]
    unfold enter
    rw [if_neg (by simp [hb.1, hb.2.1]), if_neg hb.2.2]
  have h2 : w.backupKey i =
      some (absKey w.cwd (dirname p) ++ [backupName (basename p)]) := by
    unfold World.backupKey
    rw [hi]
    simp only [Option.bind_some, hp, Option.map_some]
    unfold backupPath backupName
    rw [absKey_join _ _ _ (by have := basename_noslash p; simp [this])]
    unfold enter
    rw [if_neg (by simp), if_neg (by simp)]
  refine ⟨_, _, h1, h2, ?_⟩
  rw [h1, h2]
  intro hh
  injection hh with hh
  have := List.append_cancel_left hh
  injection this with this
  have := congrArg List.length this
  simp [backupName] at this
  omega

example : ∃ h p, Demo.world.spaces[2]? = some h ∧ h.hint = some p ∧ basename p ∉ [[], ['.'], ['.', '.']] :=
  ⟨_, _, rfl, rfl, by decide⟩

/-- Backups that have different names, none of which is the name of a file that one of the dataspaces is bound to: after
the backups were made each backup holds the data of its dataspace, and the data of the dataspaces is what it was. -/
theorem C87_backup_partial (is : List Nat) : ∀ (w : World), is.Nodup → (w.backup is).2 = .ok () →
    (∀ i ∈ is, ∀ j ∈ is, i ≠ j → w.backupKey i ≠ w.backupKey j) →
    (∀ i ∈ is, ∀ j ∈ is, ∀ k m, w.backupKey i = some k → ¬ w.boundTo j k m) →
    ∀ i ∈ is, ∃ k s t, w.backupKey i = some k ∧ w.data i = some s ∧ (w.backup is).1.stored k = some t ∧ SameData s t ∧
      (w.backup is).1.data i = some s := by
  induction is with
  | nil => intro w _ _ _ _ i hi; simp at hi
  | cons i0 is ih =>
    intro w hn hok hdist hfree i hi
    have hn' := List.nodup_cons.1 hn
    have hfull := hn
    rw [World.backup] at hok ⊢
    cases hi0 : w.spaces[i0]? with
    | none => rw [hi0] at hok; simp at hok
    | some hd =>
      rw [hi0] at hok
      dsimp only at hok ⊢
      cases hh : hd.hint with
      | none => rw [hh] at hok; simp at hok
      | some p =>
        rw [hh] at hok
        dsimp only at hok ⊢
        have hk : w.backupKey i0 = some (absKey w.cwd (backupPath p)) := by
          unfold World.backupKey; rw [hi0]; simp [hh]
        obtain ⟨f1, f2, f3, f4, f5⟩ := save_frame w i0 (backupPath p)
        have hkey := fun (j : Nat) (hj : j ≠ i0) => save_backupKey w i0 (backupPath p) hj
        have hhand := fun (j : Nat) (h : Handle) (hj : w.spaces[j]? = some h) => save_handle w i0 (backupPath p) hj
        have hsok := fun h => save_ok (w := w) (i := i0) (path := backupPath p) h
        rcases hsv : w.save i0 (backupPath p) with ⟨w', r⟩
        rw [hsv] at hok f1 f2 f3 f4 f5 hsok
        simp only [hsv] at hkey hhand
        dsimp only at f1 f2 f3 f4 f5 hok ⊢
        cases r with
        | error e => simp at hok
        | ok u =>
          dsimp only at hok ⊢
          obtain ⟨hd', s, c1, c2, c3⟩ := hsok rfl
          rw [hi0] at c1
          injection c1 with c1
          subst c1
          dsimp only at c3
          -- the objects that are backed up are bound to other files
          have hbound : ∀ j ∈ i0 :: is, ∀ h, w.spaces[j]? = some h → ∀ k m, h.place = .bound k m →
              k ≠ absKey w.cwd (backupPath p) := by
            intro j hj h hjh k m hpl heq
            exact hfree i0 List.mem_cons_self j hj k m (heq ▸ hk) ⟨h, hjh, hpl⟩
          have hdata : ∀ j ∈ i0 :: is, w'.data j = w.data j := by
            intro j hj
            unfold World.data
            cases hjh : w.spaces[j]? with
            | none =>
              have : w'.spaces[j]? = none := by
                rw [List.getElem?_eq_none_iff] at hjh ⊢; rw [f5]; exact hjh
              rw [this]; rfl
            | some h =>
              obtain ⟨h', d1, d2, d3, _⟩ := hhand j h hjh
              rw [d1]
              change w'.shown h' = w.shown h
              have : w'.shown h' = w'.shown h := by unfold World.shown; rw [d3]
              rw [this]
              exact shown_eq h fun k m hpl => f3 k (hbound j hj h hjh k m hpl)
          have hmem : ∀ j ∈ is, j ≠ i0 := fun j hj e => hn'.1 (e ▸ hj)
          have hfree' : ∀ i ∈ is, ∀ j ∈ i0 :: is, ∀ k m, w'.backupKey i = some k → ¬ w'.boundTo j k m := by
            rintro i1 hi1 j hj k m hk1 ⟨h', e1, e2⟩
            rw [hkey i1 (hmem i1 hi1)] at hk1
            obtain ⟨h, e3, _, e5, _⟩ := f4 j h' e1
            exact hfree i1 (List.mem_cons_of_mem _ hi1) j hj k m hk1 ⟨h, e3, e5 ▸ e2⟩
          have hrest := ih w' hn'.2 hok
            (fun i1 hi1 j hj hne => by
              rw [hkey i1 (hmem i1 hi1), hkey j (hmem j hj)]
              exact hdist i1 (List.mem_cons_of_mem _ hi1) j (List.mem_cons_of_mem _ hj) hne)
            (fun i1 hi1 j hj => hfree' i1 hi1 j (List.mem_cons_of_mem _ hj))
          rcases List.mem_cons.1 hi with rfl | hi'
          · -- the first one
            have hfr := (backup_frame is w' hn'.2).2
            have hdi : w.data i = some s := by unfold World.data; rw [hi0]; exact c2
            refine ⟨_, s, closed s, hk, hdi, ?_, rfl, ?_⟩
            · have : (w'.backup is).1.files (absKey w.cwd (backupPath p)) =
                  w'.files (absKey w.cwd (backupPath p)) := by
                apply hfr
                intro j hj
                rw [hkey j (hmem j hj), ← hk]
                exact (hdist i List.mem_cons_self j (List.mem_cons_of_mem _ hj) (hmem j hj).symm).symm
              rw [stored_eq this]
              unfold World.stored
              have : w'.files (absKey w.cwd (backupPath p)) = some ⟨.space (closed s), true⟩ := by
                rw [c3]
                change (w.put _ _).files _ = _
                rw [put_files, if_pos rfl]
              rw [this]
            · rw [← hdi, ← hdata i List.mem_cons_self]
              obtain ⟨h1, g1, _, g3, _⟩ := hhand i hd hi0
              refine C87_unaffected w' (.backup is) (fun js e => by injection e with e; exact e ▸ hn'.2) i
                (List.getElem?_eq_some_iff.1 g1).1 (by simp) ?_
              rintro k m hbt ⟨j, hj, hjk⟩
              exact hfree' j hj i List.mem_cons_self k m hjk hbt
          · obtain ⟨k, s1, t1, g1, g2, g3, g4, g5⟩ := hrest i hi'
            exact ⟨k, s1, t1, by rw [← hkey i (hmem i hi')]; exact g1,
              by rw [← hdata i (List.mem_cons_of_mem _ hi')]; exact g2, g3, g4, g5⟩

/-- The files `/x` and `/z` are bound; the conditions hold of the two objects. -/
example : ∃ w : World, w.Made ∧ (w.backup [2, 3]).2 = .ok () ∧
    w.backupKey 2 = some [backupName ['x']] ∧ w.backupKey 3 = some [backupName ['z']] ∧
    (w.spaces.map fun h => match h.place with | .memory _ => none | .bound k _ => some k) =
      [none, none, some [['x']], some [['z']]] :=
  ⟨Demo.empty.run [.create ['a'] false, .save 0 ['/', 'x'], .create ['b'] false, .save 1 ['z'],
    .bind ['/', 'x'] .rw [], .bind ['.', '/', 'z'] .ro []], ⟨_, _, Demo.fresh, rfl⟩, by decide +kernel, by decide +kernel,
    by decide +kernel, by decide +kernel⟩

/-- Violated: when one of the files is named like the backup of another one, making backups before a command destroys it.
With `/x` and `/backup-x` both bound, as by a command with the option `--backup` that is given both, the backup of the
first replaces the file of the second; no file holds the data of the second any more, and its object now shows the data
of the first. -/
theorem C87_violated_backup : ∃ w : World, w.Made ∧ (w.data 3).map (·.uid) = some ['b'] ∧ (w.backup [2, 3]).2 = .ok () ∧
    ((w.backup [2, 3]).1.data 3).map (·.uid) = some ['a'] ∧
    ∀ k s, (w.backup [2, 3]).1.stored k = some s → s.uid ≠ ['b'] := by
  refine ⟨Demo.world, Demo.made, by decide +kernel, by decide +kernel, by decide +kernel, ?_⟩
  intro k s h hs
  have hw : ∀ k, k ≠ [['x']] → k ≠ [backupName ['x']] → Demo.world.files k = none := by
    intro k h1 h2
    change ((((((Demo.empty.act (.create ['a'] false)).1.act (.save 0 ['/', 'x'])).1.act (.create ['b'] false)).1.act
      (.save 1 (backupPath ['/', 'x']))).1.act (.bind ['/', 'x'] .rw [])).1.act
      (.bind (backupPath ['/', 'x']) .rw [])).1.files k = none
    refine (act_files _ _ (by simp) k (by simp [World.mayWrite])).trans ?_
    refine (act_files _ _ (by simp) k (by simp [World.mayWrite])).trans ?_
    refine (act_files _ _ (by simp) k ?_).trans ?_
    · intro e; exact h2 (show [backupName ['x']] = k from e).symm
    refine (act_files _ _ (by simp) k (by simp [World.mayWrite])).trans ?_
    refine (act_files _ _ (by simp) k ?_).trans ?_
    · intro e; exact h1 (show [['x']] = k from e).symm
    exact act_files Demo.empty _ (by simp) k (by simp [World.mayWrite])
  have h1 : ((Demo.world.backup [2, 3]).1.stored [['x']]).map (·.uid) = some ['a'] := by decide +kernel
  have h2 : ((Demo.world.backup [2, 3]).1.stored [backupName ['x']]).map (·.uid) = some ['a'] := by decide +kernel
  have h3 : ((Demo.world.backup [2, 3]).1.stored [backupName (backupName ['x'])]).map (·.uid) = some ['a'] := by
    decide +kernel
  by_cases k1 : k = [['x']]
  · rw [← k1, h, Option.map_some, hs] at h1; revert h1; decide
  by_cases k2 : k = [backupName ['x']]
  · rw [← k2, h, Option.map_some, hs] at h2; revert h2; decide
  by_cases k3 : k = [backupName (backupName ['x'])]
  · rw [← k3, h, Option.map_some, hs] at h3; revert h3; decide
  have := (backup_frame [2, 3] Demo.world (by decide)).2 k (by
    intro i hi e
    simp only [List.mem_cons, List.not_mem_nil, or_false] at hi
    rcases hi with rfl | rfl
    · have e' : Demo.world.backupKey 2 = some [backupName ['x']] := rfl
      rw [e'] at e; injection e with e; exact k2 e.symm
    · have e' : Demo.world.backupKey 3 = some [backupName (backupName ['x'])] := rfl
      rw [e'] at e; injection e with e; exact k3 e.symm)
  rw [stored_eq this] at h
  unfold World.stored at h
  rw [hw k k1 k2] at h
  simp at h

end Toron.Files
