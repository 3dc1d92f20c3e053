/-
C105: what a command that edits one file does to the files.
-/
import Verif.Lemmas.Command

namespace Toron.Files

open Toron.Selectors (PyStr Sel)
open Toron.Space (Store Op step)

theorem sameData_closed (s : Store) : SameData s (closed s) := by
  unfold SameData closed
  rfl

/-- Opening the file for a command. -/
theorem bind_rw (w : World) (path : PyStr) :
    (∃ s, w.files (absKey w.cwd path) = some ⟨.space s, true⟩ ∧
      w.bindFile path .rw [] = (w.add ⟨s.uid, .bound (absKey w.cwd path) .rw, some path⟩, .ok ())) ∨
    ((∀ s, w.files (absKey w.cwd path) ≠ some ⟨.space s, true⟩) ∧ ∃ e, w.bindFile path .rw [] = (w, .error e)) := by
  unfold World.bindFile
  dsimp only
  cases hf : w.files (absKey w.cwd path) with
  | none => exact .inr ⟨by simp, _, rfl⟩
  | some f =>
    obtain ⟨c, b⟩ := f
    cases b with
    | false => exact .inr ⟨by simp, _, rfl⟩
    | true =>
      cases c with
      | other => exact .inr ⟨by simp, _, rfl⟩
      | space s => exact .inl ⟨s, rfl, rfl⟩

/-- C105, a file that cannot be opened. If the file is missing, is not a Toron file or may not be written, the command
ends with an error message, and nothing has changed, whatever the command and its options. -/
theorem C105_refused (w : World) (path : PyStr) (b : Bool) (e : Edit)
    (h : ∀ s, w.files (absKey w.cwd path) ≠ some ⟨.space s, true⟩) : w.command path b e = (w, .err) := by
  rcases bind_rw w path with ⟨s, h1, _⟩ | ⟨_, er, h2⟩
  · exact absurd h1 (h s)
  · unfold World.command
    rw [h2]

example : ∀ s, Demo.world.files (absKey Demo.world.cwd ['y']) ≠ some ⟨.space s, true⟩ := by
  have : (Demo.world.files (absKey Demo.world.cwd ['y'])).isSome = false := by decide +kernel
  intro s h
  rw [h] at this
  cases this

/-- The file of the backup is another one. -/
theorem backup_other (w : World) (path : PyStr) (hb : basename path ∉ [[], ['.'], ['.', '.']]) :
    absKey w.cwd (backupPath path) ≠ absKey w.cwd path := by
  obtain ⟨d, c, _, _, h3⟩ := C87_backup_beside (w.add ⟨[], .memory (Store.new []), some path⟩) w.spaces.length
    ⟨[], .memory (Store.new []), some path⟩ path (by simp [World.add]) rfl hb
  intro h
  apply h3
  unfold World.backupKey
  simp [World.add, h]

/-- Everything a command does to the files. -/
theorem command_account {w : World} (hw : w.Made) {path : PyStr} (hb : basename path ∉ [[], ['.'], ['.', '.']])
    (b : Bool) (e : Edit) {s : Store} (hf : w.files (absKey w.cwd path) = some ⟨.space s, true⟩) :
    ∃ s', (w.command path b e).1.files (absKey w.cwd path) = some ⟨.space s', true⟩ ∧
      (∀ k, k ≠ absKey w.cwd path → k ≠ absKey w.cwd (backupPath path) →
        (w.command path b e).1.files k = w.files k) ∧
      ((w.command path b e).1.files (absKey w.cwd (backupPath path)) = w.files (absKey w.cwd (backupPath path)) ∧
          (b = true → (w.command path b e).2 = .crash) ∨
        b = true ∧ (w.command path b e).1.files (absKey w.cwd (backupPath path)) = some ⟨.space (closed s), true⟩) ∧
      ((w.command path b e).2 = .ok → e.Meant s s') ∧ ((w.command path b e).2 ≠ .ok → s' = s) ∧
      (∀ s0, e.Meant s s0 → (b = true → w.dirs (absKey w.cwd (backupPath path)).dropLast = some true ∧
          (∀ f, w.files (absKey w.cwd (backupPath path)) = some f → f.writable = true) ∧
          w.dirs (absKey w.cwd (backupPath path)) = none) → (w.command path b e).2 = .ok ∧ s' = s0) := by
  have hs : Space.Reachable s := (inv_of_made hw).stored _ s (by unfold World.stored; rw [hf])
  have hk := backup_other w path hb
  rcases bind_rw w path with ⟨s1, h1, h2⟩ | ⟨h1, _⟩
  swap
  · exact absurd hf (h1 s)
  rw [hf] at h1
  injection h1 with h1
  injection h1 with h1 _
  injection h1 with h1
  subst h1
  have hcmd : w.command path b e =
      (((w.add ⟨s.uid, .bound (absKey w.cwd path) .rw, some path⟩).edit w.spaces.length b e).1.leave w.spaces,
        ((w.add ⟨s.uid, .bound (absKey w.cwd path) .rw, some path⟩).edit w.spaces.length b e).2) := by
    unfold World.command
    rw [h2]
  rw [hcmd]
  dsimp only
  generalize hw1 : w.add ⟨s.uid, .bound (absKey w.cwd path) .rw, some path⟩ = w1
  have hfiles : w1.files = w.files := by rw [← hw1]; rfl
  have hcwd : w1.cwd = w.cwd := by rw [← hw1]; rfl
  have hdirs : w1.dirs = w.dirs := by rw [← hw1]; rfl
  have hi : w1.spaces[w.spaces.length]? = some ⟨s.uid, .bound (absKey w.cwd path) .rw, some path⟩ := by
    rw [← hw1]; simp [World.add]
  have ho : Open w1 w.spaces.length (absKey w.cwd path) s true :=
    ⟨⟨_, hi, rfl⟩, by rw [hfiles]; exact hf⟩
  cases b with
  | false =>
    obtain ⟨s', g1, g2, g3, g4, g5⟩ := edit_opened ho hs e
    refine ⟨s', g1, fun k h _ => ?_, .inl ⟨?_, by simp⟩, g3, g4, fun s0 h0 _ => g5 s0 h0⟩
    · exact (g2 k h).trans (by rw [hfiles])
    · exact (g2 _ hk).trans (by rw [hfiles])
  | true =>
    rcases edit_backup ho e (path := path) (by
        intro h hh
        rw [hi] at hh
        injection hh with hh
        rw [← hh]) (by rw [hcwd]; exact hk) with ⟨⟨er, her⟩, h3⟩ | ⟨w', h3, ho', h4, h5⟩
    · rw [h3]
      refine ⟨s, ho.file, fun k _ _ => ?_, .inl ⟨?_, fun _ => rfl⟩, (by intro h; cases h), fun _ => rfl, ?_⟩
      · change w1.files k = _
        rw [hfiles]
      · change w1.files _ = _
        rw [hfiles]
      · intro s0 _ hok
        obtain ⟨o1, o2, o3⟩ := hok rfl
        have := C87_save_succeeds w1 w.spaces.length (backupPath path) (by
          unfold World.data World.shown
          rw [hi]
          simp [World.stored, hfiles, hf]) (by rw [hdirs, hcwd]; exact o1) (by rw [hfiles, hcwd]; exact o2)
          (by rw [hdirs, hcwd]; exact o3)
        rw [her] at this
        cases this
    · rw [h4]
      rw [hcwd, hfiles] at h5
      obtain ⟨s', g1, g2, g3, g4, g5⟩ := edit_opened ho' hs e
      refine ⟨s', g1, fun k h h' => ?_, .inr ⟨rfl, ?_⟩, g3, g4, fun s0 h0 _ => g5 s0 h0⟩
      · exact (g2 k h).trans (by rw [h5, if_neg h'])
      · exact (g2 _ hk).trans (by rw [h5, if_pos rfl])

/-- C105, a command that ends well has done to the file what it is for. The file held a dataspace `s`, and holds `s'`
now. With `--backup` the file `backup-…` beside it holds the data of `s`, else it is as it was. No other file has
changed. -/
theorem C105_ok {w : World} (hw : w.Made) {path : PyStr} (hb : basename path ∉ [[], ['.'], ['.', '.']])
    (b : Bool) (e : Edit) (hok : (w.command path b e).2 = .ok) :
    ∃ s s', w.stored (absKey w.cwd path) = some s ∧ (w.command path b e).1.stored (absKey w.cwd path) = some s' ∧
      e.Meant s s' ∧
      (b = true → ∃ t, (w.command path b e).1.stored (absKey w.cwd (backupPath path)) = some t ∧ SameData s t) ∧
      ∀ k, k ≠ absKey w.cwd path → (b = true → k ≠ absKey w.cwd (backupPath path)) →
        (w.command path b e).1.files k = w.files k := by
  by_cases hf : ∃ s, w.files (absKey w.cwd path) = some ⟨.space s, true⟩
  swap
  · rw [C105_refused w path b e (fun s h => hf ⟨s, h⟩)] at hok
    cases hok
  obtain ⟨s, hf⟩ := hf
  obtain ⟨s', g1, g2, g3, g4, g5, g6⟩ := command_account hw hb b e hf
  refine ⟨s, s', by unfold World.stored; rw [hf], by unfold World.stored; rw [g1], g4 hok, ?_, ?_⟩
  · rintro rfl
    rcases g3 with ⟨_, h⟩ | ⟨_, h⟩
    · rw [h rfl] at hok
      cases hok
    · exact ⟨closed s, by unfold World.stored; rw [h], sameData_closed s⟩
  · intro k h1 h2
    by_cases h3 : k = absKey w.cwd (backupPath path)
    · subst h3
      rcases g3 with ⟨h, _⟩ | ⟨h, _⟩
      · exact h
      · exact absurd rfl (h2 h)
    · exact g2 k h1 h3

/-- C105, a command that can do what it is for does it. The file can be opened, the backup, if wanted, can be written,
and the dataspace admits the change: then the command ends well and the file holds the changed dataspace. -/
theorem C105_done {w : World} (hw : w.Made) {path : PyStr} (hb : basename path ∉ [[], ['.'], ['.', '.']])
    (b : Bool) (e : Edit) {s s' : Store} (hf : w.files (absKey w.cwd path) = some ⟨.space s, true⟩)
    (hdir : b = true → w.dirs (absKey w.cwd (backupPath path)).dropLast = some true ∧
      (∀ f, w.files (absKey w.cwd (backupPath path)) = some f → f.writable = true) ∧
      w.dirs (absKey w.cwd (backupPath path)) = none)
    (hm : e.Meant s s') :
    (w.command path b e).2 = .ok ∧ (w.command path b e).1.stored (absKey w.cwd path) = some s' := by
  obtain ⟨s1, g1, g2, g3, g4, g5, g6⟩ := command_account hw hb b e hf
  obtain ⟨h1, rfl⟩ := g6 s' hm hdir
  exact ⟨h1, by unfold World.stored; rw [g1]⟩

/-- C105, a command that ends in any other way has not changed the file, nor any other file but the backup. The backup is
either as it was or has the data of the file. -/
theorem C105_failed_partial {w : World} (hw : w.Made) {path : PyStr} (hb : basename path ∉ [[], ['.'], ['.', '.']])
    (b : Bool) (e : Edit) (hno : (w.command path b e).2 ≠ .ok) :
    (∀ k, (b = true → k ≠ absKey w.cwd (backupPath path)) → (w.command path b e).1.files k = w.files k) ∧
    (b = true →
      (w.command path b e).1.files (absKey w.cwd (backupPath path)) = w.files (absKey w.cwd (backupPath path)) ∨
      ∃ s t, w.stored (absKey w.cwd path) = some s ∧
        (w.command path b e).1.stored (absKey w.cwd (backupPath path)) = some t ∧ SameData s t) := by
  by_cases hf : ∃ s, w.files (absKey w.cwd path) = some ⟨.space s, true⟩
  swap
  · rw [C105_refused w path b e (fun s h => hf ⟨s, h⟩)]
    exact ⟨fun _ _ => rfl, fun _ => .inl rfl⟩
  obtain ⟨s, hf⟩ := hf
  obtain ⟨s', g1, g2, g3, g4, g5, g6⟩ := command_account hw hb b e hf
  obtain rfl := g5 hno
  constructor
  · intro k h
    by_cases h1 : k = absKey w.cwd path
    · subst h1
      rw [g1, hf]
    by_cases h3 : k = absKey w.cwd (backupPath path)
    · subst h3
      rcases g3 with ⟨h', _⟩ | ⟨h', _⟩
      · exact h'
      · exact absurd rfl (h h')
    · exact g2 k h1 h3
  · rintro rfl
    rcases g3 with ⟨h, _⟩ | ⟨_, h⟩
    · exact .inl h
    · exact .inr ⟨s', closed s', by unfold World.stored; rw [hf], by unfold World.stored; rw [h], sameData_closed _⟩

/-- C105, the command leaves no dataspace open, and the folders as they are. -/
theorem C105_leaves (w : World) (path : PyStr) (b : Bool) (e : Edit) :
    (w.command path b e).1.spaces = w.spaces := by
  unfold World.command
  rcases w.bindFile path .rw [] with ⟨w1, _ | _⟩ <;> rfl

/-! Examples -/

/-- The domain of `/x` is set, with a backup. -/
example : (Demo.world.command ['/', 'x'] true (.renameDomain ['d'])).2 = .ok ∧
    (((Demo.world.command ['/', 'x'] true (.renameDomain ['d'])).1.stored [['x']]).bind (·.domain)) = some ['d'] := by
  decide +kernel

example : basename ['/', 'x'] ∉ [[], ['.'], ['.', '.']] := by decide

/-- A weight group that is not there. -/
example : (Demo.world.command ['/', 'x'] true (.updateWeight ['w'] false none true)).2 = .err := by decide +kernel

/-- C105 is violated: a command that fails has replaced the backup of the command before it. A label is added to `/x` with
a backup, and a second command with a backup changes nothing since it names a group that is not there; the backup now
has the label too, and the way back to the file without it is lost. -/
theorem C105_violated_backup : ∃ w : World, w.Made ∧
    (let w1 := (w.command ['/', 'x'] true (.addLabel [['c']])).1
     let w2 := w1.command ['/', 'x'] true (.updateWeight ['w'] false none true)
     (w1.stored (absKey w.cwd (backupPath ['/', 'x']))).map (·.cols) = some [] ∧
     w2.2 = .err ∧
     (w2.1.stored (absKey w.cwd (backupPath ['/', 'x']))).map (·.cols) = some [['c']]) :=
  ⟨Demo.world, Demo.made, by decide +kernel⟩

/-- C105 is violated: some mistakes of the user end in an exception that is not caught instead of an error message: a
label is moved by no place (`--move-left 0`), a label is added that differs from one of the file only in the case of its
letters. (Moving a label that is not there, or adding one that is, ends with a message.) -/
theorem C105_violated_crash : ∃ w : World, w.Made ∧
    (let w1 := (w.command ['/', 'x'] false (.addLabel [['c']])).1
     (w1.command ['/', 'x'] false (.updateLabel ['c'] 0 0)).2 = .crash ∧
     (w1.command ['/', 'x'] false (.addLabel [['C']])).2 = .crash ∧
     (w1.command ['/', 'x'] false (.updateLabel ['d'] 1 0)).2 = .err ∧
     (w1.command ['/', 'x'] false (.addLabel [['c']])).2 = .err) :=
  ⟨Demo.world, Demo.made, by decide +kernel⟩

end Toron.Files
