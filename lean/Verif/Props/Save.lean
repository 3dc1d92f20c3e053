/-
C44: saving is atomic with respect to errors, crashes and power failures.
-/
import Verif.Model.Save

namespace Toron.Save

variable {α : Type}

/-! ### The states a save goes through -/

/-- While the temporary file is written. -/
def FS.mid (s : FS α) (tmp : Nat) (c : α) (b : Bool) : FS α where
  dir := upd s.dir tmp (some s.next)
  past := s.dir :: s.past
  data := upd s.data s.next c
  synced := upd s.synced s.next b
  next := s.next + 1

/-- After the temporary file has been moved. -/
def FS.moved (s : FS α) (dst tmp : Nat) (c : α) (b : Bool) : FS α :=
  { s.mid tmp c b with
    dir := upd (upd (upd s.dir tmp (some s.next)) dst (some s.next)) tmp none,
    past := upd s.dir tmp (some s.next) :: s.dir :: s.past }

theorem act_create (s : FS α) (dst tmp : Nat) (empty : α) :
    s.act dst tmp empty .create = s.mid tmp empty false := rfl

theorem mid_dir (s : FS α) (tmp : Nat) (c : α) (b : Bool) : (s.mid tmp c b).dir tmp = some s.next := by
  simp [FS.mid, upd]

theorem upd_upd {β : Type} (f : Nat → β) (a : Nat) (x y : β) : upd (upd f a x) a y = upd f a y := by
  funext n
  unfold upd
  by_cases h : n = a <;> simp [h]

theorem act_write (s : FS α) (dst tmp : Nat) (empty c c' : α) (b : Bool) :
    (s.mid tmp c b).act dst tmp empty (.write c') = s.mid tmp c' false := by
  simp only [FS.act, mid_dir]
  simp [FS.mid, upd_upd]

theorem act_sync (s : FS α) (dst tmp : Nat) (empty c : α) (b : Bool) :
    (s.mid tmp c b).act dst tmp empty .sync = s.mid tmp c true := by
  simp only [FS.act, mid_dir]
  simp [FS.mid, upd_upd]

theorem act_replace (s : FS α) (dst tmp : Nat) (empty c : α) (b : Bool) :
    (s.mid tmp c b).act dst tmp empty .replace = s.moved dst tmp c b := by
  simp only [FS.act, mid_dir]
  rfl

theorem act_chmod (s : FS α) (dst tmp : Nat) (empty : α) : s.act dst tmp empty .chmod = s := rfl

theorem act_syncDir (s : FS α) (dst tmp : Nat) (empty : α) :
    s.act dst tmp empty .syncDir = { s with past := [] } := rfl

theorem acts_writes (s : FS α) (dst tmp : Nat) (empty c : α) (b : Bool) (ws : List α) :
    ∃ c' b', (s.mid tmp c b).acts dst tmp empty (ws.map .write) = s.mid tmp c' b' := by
  induction ws generalizing c b with
  | nil => exact ⟨c, b, rfl⟩
  | cons w ws ih =>
    simp only [FS.acts, List.map_cons, List.foldl_cons, act_write]
    exact ih w false

theorem acts_append (s : FS α) (dst tmp : Nat) (empty : α) (l l' : List (Act α)) :
    s.acts dst tmp empty (l ++ l') = (s.acts dst tmp empty l).acts dst tmp empty l' := by
  simp [FS.acts]

theorem acts_cons (s : FS α) (dst tmp : Nat) (empty : α) (a : Act α) (l : List (Act α)) :
    s.acts dst tmp empty (a :: l) = (s.act dst tmp empty a).acts dst tmp empty l := rfl

theorem acts_nil (s : FS α) (dst tmp : Nat) (empty : α) : s.acts dst tmp empty [] = s := rfl

/-- The part of the program after the file has been written. -/
def Env.tail (e : Env α) : List (Act α) :=
  if e.fsync then [.sync, .chmod, .replace] ++ (if e.windows then [] else [.syncDir])
  else [.chmod, .replace]

/-- The state after a save without interruption. -/
def Env.final (e : Env α) (s : FS α) (dst tmp : Nat) : FS α :=
  if e.fsync && !e.windows then { s.moved dst tmp e.new true with past := [] }
  else s.moved dst tmp e.new e.fsync

theorem acts_tail (e : Env α) (s : FS α) (dst tmp : Nat) (m : Nat) :
    (∃ b, (s.mid tmp e.new false).acts dst tmp e.empty (e.tail.take m) = s.mid tmp e.new b) ∨
    (s.mid tmp e.new false).acts dst tmp e.empty (e.tail.take m) = s.moved dst tmp e.new e.fsync ∨
    ((s.mid tmp e.new false).acts dst tmp e.empty (e.tail.take m) = e.final s dst tmp ∧ e.tail.length ≤ m) := by
  unfold Env.tail Env.final
  cases e.fsync <;> cases e.windows <;>
    rcases m with _ | _ | _ | _ | m <;>
    simp only [Bool.false_eq_true, if_true, if_false, List.take_zero, List.take_succ_cons, List.take_nil,
      List.cons_append, List.nil_append, acts_cons, acts_nil, act_sync, act_replace, act_chmod, act_syncDir,
      Bool.not_true, Bool.not_false, Bool.and_true, Bool.and_false] <;>
    first
    | exact .inl ⟨_, rfl⟩
    | exact .inr (.inl rfl)
    | exact .inr (.inr ⟨rfl, by simp⟩)
    | exact .inr (.inl trivial)
    | exact .inr (.inr ⟨trivial, by simp⟩)

theorem acts_program (e : Env α) (s : FS α) (dst tmp : Nat) :
    s.acts dst tmp e.empty e.program = e.final s dst tmp := by
  obtain ⟨c', b', h⟩ := acts_writes s dst tmp e.empty e.empty false e.chunks
  have h2 : s.acts dst tmp e.empty e.program = (s.mid tmp e.new false).acts dst tmp e.empty e.tail := by
    show s.acts dst tmp e.empty (.create :: (e.chunks.map .write ++ .write e.new :: e.tail)) = _
    rw [acts_cons, act_create, acts_append, h, acts_cons, act_write]
  rw [h2]
  unfold Env.tail Env.final
  cases e.fsync <;> cases e.windows <;> simp [acts_cons, acts_nil, act_sync, act_replace, act_chmod, act_syncDir]

/-- Every prefix of the program. -/
theorem acts_take (e : Env α) (s : FS α) (dst tmp : Nat) (n : Nat) :
    (n = 0 ∧ s.acts dst tmp e.empty (e.program.take n) = s) ∨
    (∃ c b, s.acts dst tmp e.empty (e.program.take n) = s.mid tmp c b) ∨
    s.acts dst tmp e.empty (e.program.take n) = s.moved dst tmp e.new e.fsync ∨
    (s.acts dst tmp e.empty (e.program.take n) = e.final s dst tmp ∧ e.program.length ≤ n) := by
  cases n with
  | zero => exact .inl ⟨rfl, rfl⟩
  | succ n =>
    right
    have hp : e.program = .create :: (e.chunks.map .write ++ .write e.new :: e.tail) := rfl
    rw [hp, List.take_succ_cons, acts_cons, act_create]
    by_cases hn : n ≤ e.chunks.length
    · left
      rw [List.take_append_of_le_length (by simpa using hn), ← List.map_take]
      exact acts_writes s dst tmp e.empty e.empty false _
    · obtain ⟨m, rfl⟩ : ∃ m, n = e.chunks.length + (m + 1) := ⟨n - e.chunks.length - 1, by omega⟩
      have ht : ((e.chunks.map Act.write ++ Act.write e.new :: e.tail).take (e.chunks.length + (m + 1))) =
          e.chunks.map .write ++ .write e.new :: e.tail.take m := by
        rw [List.take_append, List.take_of_length_le (by simp)]
        simp
      rw [ht]
      obtain ⟨c', b', h⟩ := acts_writes s dst tmp e.empty e.empty false e.chunks
      rw [acts_append, h, acts_cons, act_write]
      rcases acts_tail e s dst tmp m with ⟨b, h1⟩ | h1 | ⟨h1, h2⟩
      · exact .inl ⟨_, b, h1⟩
      · exact .inr (.inl h1)
      · refine .inr (.inr ⟨h1, ?_⟩)
        simp
        omega

/-- After an error the temporary file has been removed. -/
def FS.cleaned (s : FS α) (tmp : Nat) (c : α) (b : Bool) : FS α :=
  { s.mid tmp c b with dir := upd s.dir tmp none, past := upd s.dir tmp (some s.next) :: s.dir :: s.past }

theorem unlink_mid (s : FS α) (tmp : Nat) (c : α) (b : Bool) :
    (s.mid tmp c b).unlink tmp = (s.cleaned tmp c b, true) := by
  simp only [FS.unlink, mid_dir]
  simp [FS.mid, FS.cleaned, upd_upd]

theorem moved_tmp (s : FS α) (dst tmp : Nat) (c : α) (b : Bool) : (s.moved dst tmp c b).dir tmp = none := by
  simp [FS.moved, upd]

theorem final_tmp (e : Env α) (s : FS α) (dst tmp : Nat) : (e.final s dst tmp).dir tmp = none := by
  unfold Env.final
  by_cases h : (e.fsync && !e.windows) = true
  · rw [if_pos h]; exact moved_tmp s dst tmp e.new true
  · rw [if_neg h]; exact moved_tmp ..

/-- All states in which a save can end, with the outcome. -/
theorem save_states (e : Env α) (dst tmp : Nat) (s : FS α) (stop : Option (Nat × Stop)) :
    (((save e dst tmp s stop).1 = s ∧ (save e dst tmp s stop).2 ≠ .saved) ∨
     (∃ c b, (save e dst tmp s stop).1 = s.mid tmp c b ∧
        ((save e dst tmp s stop).2 = .interrupted ∨ (save e dst tmp s stop).2 = .unlinkFailed)) ∨
     (∃ c b, (save e dst tmp s stop).1 = s.cleaned tmp c b ∧ (save e dst tmp s stop).2 = .raised) ∨
     ((save e dst tmp s stop).1 = s.moved dst tmp e.new e.fsync ∧ (save e dst tmp s stop).2 ≠ .saved ∧
        (save e dst tmp s stop).2 ≠ .raised) ∨
     ((save e dst tmp s stop).1 = e.final s dst tmp ∧ (save e dst tmp s stop).2 = .saved)) := by
  unfold save
  by_cases h1 : e.dirWritable = false
  · rw [if_pos h1]; exact .inl ⟨rfl, by simp⟩
  rw [if_neg h1]
  by_cases h2 : e.dstReadOnly = true
  · rw [if_pos h2]; exact .inl ⟨rfl, by simp⟩
  rw [if_neg h2]
  cases stop with
  | none => exact .inr (.inr (.inr (.inr ⟨acts_program e s dst tmp, rfl⟩)))
  | some p =>
    obtain ⟨n, how⟩ := p
    simp only
    by_cases hn : e.program.length ≤ n
    · rw [if_pos hn]
      exact .inr (.inr (.inr (.inr ⟨acts_program e s dst tmp, rfl⟩)))
    rw [if_neg hn]
    rcases acts_take e s dst tmp n with ⟨h0, h⟩ | ⟨c, b, h⟩ | h | ⟨-, h⟩
    · left
      subst h0
      cases how <;> exact ⟨rfl, by simp⟩
    · cases how with
      | interrupt => exact .inr (.inl ⟨c, b, h, .inl rfl⟩)
      | error =>
        by_cases h0 : n = 0
        · subst h0
          exact .inl ⟨rfl, by simp⟩
        · simp only [h0, if_false, h, unlink_mid]
          exact .inr (.inr (.inl ⟨c, b, rfl, trivial⟩))
      | errorTwice =>
        by_cases h0 : n = 0
        · subst h0
          exact .inl ⟨rfl, by simp⟩
        · simp only [h0, if_false, h]
          exact .inr (.inl ⟨c, b, rfl, .inr trivial⟩)
    · cases how with
      | interrupt => exact .inr (.inr (.inr (.inl ⟨h, by simp, by simp⟩)))
      | error =>
        by_cases h0 : n = 0
        · subst h0
          exact .inl ⟨rfl, by simp⟩
        · simp only [h0, if_false, h, FS.unlink, moved_tmp]
          exact .inr (.inr (.inr (.inl ⟨trivial, by simp, by simp⟩)))
      | errorTwice =>
        by_cases h0 : n = 0
        · subst h0
          exact .inl ⟨rfl, by simp⟩
        · simp only [h0, if_false, h]
          exact .inr (.inr (.inr (.inl ⟨trivial, by simp, by simp⟩)))
    · exact absurd h hn

/-! ### Processes that fail or crash -/

/-- Before a save: the names in the directory have inodes, the temporary name is not in use. -/
structure Ready (s : FS α) (dst tmp : Nat) : Prop where
  ne : tmp ≠ dst
  fresh : s.dir tmp = none
  used : ∀ name i, s.dir name = some i → i < s.next

theorem read_mid {s : FS α} {dst tmp : Nat} (h : Ready s dst tmp) (c : α) (b : Bool) {name : Nat}
    (hn : name ≠ tmp) : (s.mid tmp c b).read name = s.read name := by
  simp only [FS.read, FS.mid, upd, if_neg hn]
  cases hd : s.dir name with
  | none => rfl
  | some i =>
    have : i ≠ s.next := Nat.ne_of_lt (h.used name i hd)
    simp [upd, this]

theorem read_cleaned {s : FS α} {dst tmp : Nat} (h : Ready s dst tmp) (c : α) (b : Bool) {name : Nat}
    (hn : name ≠ tmp) : (s.cleaned tmp c b).read name = s.read name := by
  rw [← read_mid h c b hn]
  simp [FS.read, FS.cleaned, FS.mid, upd, hn]

theorem read_moved {s : FS α} {dst tmp : Nat} (h : Ready s dst tmp) (c : α) (b : Bool) :
    (s.moved dst tmp c b).read dst = some c := by
  simp [FS.read, FS.moved, FS.mid, upd, h.ne.symm]

theorem read_moved_other {s : FS α} {dst tmp : Nat} (h : Ready s dst tmp) (c : α) (b : Bool) {name : Nat}
    (hn : name ≠ tmp) (hd : name ≠ dst) : (s.moved dst tmp c b).read name = s.read name := by
  rw [← read_mid h c b hn]
  simp [FS.read, FS.moved, FS.mid, upd, hn, hd]

theorem read_final (e : Env α) (s : FS α) (dst tmp name : Nat) :
    (e.final s dst tmp).read name = (s.moved dst tmp e.new e.fsync).read name := by
  unfold Env.final
  by_cases hf : (e.fsync && !e.windows) = true
  · rw [if_pos hf]
    rw [Bool.and_eq_true] at hf
    rw [hf.1]
    rfl
  · rw [if_neg hf]

/-- **C44, destination.** At whatever system call a save stops, by an error, an interruption or because the
process is killed, the destination has its previous contents (or still does not exist) or the complete new
contents. This holds with and without `fsync`. -/
theorem C44_old_or_new (e : Env α) (dst tmp : Nat) (s : FS α) (stop : Option (Nat × Stop))
    (h : Ready s dst tmp) :
    (save e dst tmp s stop).1.read dst = s.read dst ∨ (save e dst tmp s stop).1.read dst = some e.new := by
  rcases save_states e dst tmp s stop with ⟨h1, -⟩ | ⟨c, b, h1, -⟩ | ⟨c, b, h1, -⟩ | ⟨h1, -⟩ | ⟨h1, -⟩
  · rw [h1]; exact .inl rfl
  · rw [h1]; exact .inl (read_mid h c b h.ne.symm)
  · rw [h1]; exact .inl (read_cleaned h c b h.ne.symm)
  · rw [h1]; exact .inr (read_moved h _ _)
  · rw [h1, read_final]; exact .inr (read_moved h _ _)

/-- **C44, success.** A save that returns normally has replaced the destination, left no temporary file and
all other files as they were. -/
theorem C44_saved (e : Env α) (dst tmp : Nat) (s : FS α) (stop : Option (Nat × Stop)) (h : Ready s dst tmp)
    (hs : (save e dst tmp s stop).2 = .saved) :
    (save e dst tmp s stop).1.read dst = some e.new ∧
      ∀ name, name ≠ dst → (save e dst tmp s stop).1.read name = s.read name := by
  rcases save_states e dst tmp s stop with ⟨-, h2⟩ | ⟨c, b, -, h2 | h2⟩ | ⟨c, b, -, h2⟩ | ⟨-, h2, -⟩ | ⟨h1, -⟩
  · exact absurd hs h2
  · rw [h2] at hs; cases hs
  · rw [h2] at hs; cases hs
  · rw [h2] at hs; cases hs
  · exact absurd hs h2
  · rw [h1]
    refine ⟨by rw [read_final]; exact read_moved h _ _, fun name hn => ?_⟩
    by_cases ht : name = tmp
    · subst ht
      simp [FS.read, final_tmp, h.fresh]
    · rw [read_final]
      exact read_moved_other h _ _ ht hn

/-- **C44, no rubbish.** A save that raises an error (its own, or the one about the missing temporary
file) leaves no temporary file behind, and all other files are as they were. -/
theorem C44_no_temporary_file (e : Env α) (dst tmp : Nat) (s : FS α) (stop : Option (Nat × Stop))
    (h : Ready s dst tmp)
    (hs : (save e dst tmp s stop).2 = .raised ∨ (save e dst tmp s stop).2 = .notFound ∨
      (save e dst tmp s stop).2 = .permission) :
    (save e dst tmp s stop).1.read tmp = none ∧
      ∀ name, name ≠ dst → (save e dst tmp s stop).1.read name = s.read name := by
  have key : (save e dst tmp s stop).1.dir tmp = none ∧
      ∀ name, name ≠ tmp → name ≠ dst → (save e dst tmp s stop).1.read name = s.read name := by
    rcases save_states e dst tmp s stop with ⟨h1, -⟩ | ⟨c, b, -, h2⟩ | ⟨c, b, h1, -⟩ | ⟨h1, -⟩ | ⟨h1, -⟩
    · rw [h1]; exact ⟨h.fresh, fun _ _ _ => rfl⟩
    · rcases h2 with h2 | h2 <;> rw [h2] at hs <;> simp at hs
    · rw [h1]; exact ⟨by simp [FS.cleaned, upd], fun name hn _ => read_cleaned h c b hn⟩
    · rw [h1]; exact ⟨moved_tmp .., fun name hn hd => read_moved_other h _ _ hn hd⟩
    · rw [h1]
      exact ⟨final_tmp .., fun name hn hd => by rw [read_final]; exact read_moved_other h _ _ hn hd⟩
  have ht : (save e dst tmp s stop).1.read tmp = none := by simp [FS.read, key.1]
  refine ⟨ht, fun name hn => ?_⟩
  by_cases hnt : name = tmp
  · subst hnt
    rw [ht]
    simp [FS.read, h.fresh]
  · exact key.2 name hnt hn

/-- **C44, refused saves.** If the directory is not writable or the destination is read-only nothing happens
at all. -/
theorem C44_refused (e : Env α) (dst tmp : Nat) (s : FS α) (stop : Option (Nat × Stop))
    (h : e.dirWritable = false ∨ e.dstReadOnly = true) :
    save e dst tmp s stop = (s, .permission) := by
  unfold save
  rcases h with h | h
  · rw [if_pos h]
  · by_cases h1 : e.dirWritable = false
    · rw [if_pos h1]
    · rw [if_neg h1, if_pos h]

/-! ### Histories with power failures -/

/-- Everything the destination can be after a power failure is on the drive and allowed. -/
structure Safe (dst : Nat) (good : Option α → Prop) (s : FS α) : Prop where
  used : ∀ d ∈ s.dir :: s.past, ∀ name i, d name = some i → i < s.next
  missing : ∀ d ∈ s.dir :: s.past, d dst = none → good none
  content : ∀ d ∈ s.dir :: s.past, ∀ i, d dst = some i → s.synced i = true ∧ good (some (s.data i))

theorem Safe.mono {dst : Nat} {good good' : Option α → Prop} {s : FS α} (h : Safe dst good s)
    (hg : ∀ x, good x → good' x) : Safe dst good' s :=
  ⟨h.used, fun d hd hn => hg _ (h.missing d hd hn),
    fun d hd i hi => ⟨(h.content d hd i hi).1, hg _ (h.content d hd i hi).2⟩⟩

theorem Safe.save {dst tmp : Nat} {good : Option α → Prop} {s : FS α} (h : Safe dst good s) (e : Env α)
    (stop : Option (Nat × Stop)) (hne : tmp ≠ dst) (hf : e.fsync = true) (hg : good (some e.new)) :
    Safe dst good (Save.save e dst tmp s stop).1 := by
  have lt : ∀ d ∈ s.dir :: s.past, ∀ i, d dst = some i → i ≠ s.next :=
    fun d hd i hi => Nat.ne_of_lt (h.used d hd dst i hi)
  -- a directory that was there before is still safe when only the new inode has changed
  have oldOk : ∀ c b, ∀ d ∈ s.dir :: s.past, ∀ i, d dst = some i →
      upd s.synced s.next b i = true ∧ good (some (upd s.data s.next c i)) := by
    intro c b d hd i hi
    simp only [upd, if_neg (lt d hd i hi)]
    exact h.content d hd i hi
  -- the directory with the temporary file
  have tmpUsed : ∀ name i, upd s.dir tmp (some s.next) name = some i → i < s.next + 1 := by
    intro name i hi
    unfold upd at hi
    by_cases hn : name = tmp
    · rw [if_pos hn] at hi
      cases hi
      exact Nat.lt_succ_self _
    · rw [if_neg hn] at hi
      exact Nat.lt_succ_of_lt (h.used _ List.mem_cons_self name i hi)
  have tmpDst : upd s.dir tmp (some s.next) dst = s.dir dst := by simp [upd, hne.symm]
  have oldUsed : ∀ d ∈ s.dir :: s.past, ∀ name i, d name = some i → i < s.next + 1 :=
    fun d hd name i hi => Nat.lt_succ_of_lt (h.used d hd name i hi)
  have mid : ∀ c b, Safe dst good (s.mid tmp c b) := by
    intro c b
    refine ⟨?_, ?_, ?_⟩
    · intro d hd
      rcases List.mem_cons.1 hd with rfl | hd
      · exact tmpUsed
      · exact oldUsed d hd
    · intro d hd hn
      rcases List.mem_cons.1 hd with rfl | hd
      · exact h.missing _ List.mem_cons_self (by rw [← tmpDst]; exact hn)
      · exact h.missing d hd hn
    · intro d hd i hi
      rcases List.mem_cons.1 hd with rfl | hd
      · exact oldOk c b _ List.mem_cons_self i (by rw [← tmpDst]; exact hi)
      · exact oldOk c b d hd i hi
  have cleaned : ∀ c b, Safe dst good (s.cleaned tmp c b) := by
    intro c b
    have hu : upd s.dir tmp none dst = s.dir dst := by simp [upd, hne.symm]
    refine ⟨?_, ?_, ?_⟩
    · intro d hd
      rcases List.mem_cons.1 hd with rfl | hd
      · intro name i hi
        simp only [FS.cleaned, upd] at hi
        by_cases hn : name = tmp
        · rw [if_pos hn] at hi; cases hi
        · rw [if_neg hn] at hi
          exact oldUsed _ List.mem_cons_self name i hi
      · exact (mid c b).used d hd
    · intro d hd hn
      rcases List.mem_cons.1 hd with rfl | hd
      · exact h.missing _ List.mem_cons_self (by rw [← hu]; exact hn)
      · exact (mid c b).missing d hd hn
    · intro d hd i hi
      rcases List.mem_cons.1 hd with rfl | hd
      · exact oldOk c b _ List.mem_cons_self i (by rw [← hu]; exact hi)
      · exact (mid c b).content d hd i hi
  have newDir : (upd (upd (upd s.dir tmp (some s.next)) dst (some s.next)) tmp none) dst = some s.next := by
    simp [upd, hne.symm]
  have newUsed : ∀ name i, (upd (upd (upd s.dir tmp (some s.next)) dst (some s.next)) tmp none) name = some i →
      i < s.next + 1 := by
    intro name i hi
    unfold upd at hi
    by_cases hn : name = tmp
    · rw [if_pos hn] at hi; cases hi
    · rw [if_neg hn] at hi
      by_cases hd : name = dst
      · rw [if_pos hd] at hi
        cases hi
        exact Nat.lt_succ_self _
      · rw [if_neg hd, if_neg hn] at hi
        exact oldUsed _ List.mem_cons_self name i hi
  have moved : Safe dst good (s.moved dst tmp e.new true) := by
    refine ⟨?_, ?_, ?_⟩
    · intro d hd
      rcases List.mem_cons.1 hd with rfl | hd
      · exact newUsed
      · exact (mid e.new true).used d hd
    · intro d hd hn
      rcases List.mem_cons.1 hd with rfl | hd
      · exact absurd (newDir.symm.trans hn) (by simp)
      · exact (mid e.new true).missing d hd hn
    · intro d hd i hi
      rcases List.mem_cons.1 hd with rfl | hd
      · have : s.next = i := by
          have := newDir.symm.trans hi
          simpa using this
        subst this
        simp [FS.moved, FS.mid, upd, hg]
      · exact (mid e.new true).content d hd i hi
  have final : Safe dst good (e.final s dst tmp) := by
    unfold Env.final
    rw [hf]
    by_cases hw : (true && !e.windows) = true
    · rw [if_pos hw]
      refine ⟨?_, ?_, ?_⟩
      · intro d hd
        rcases List.mem_cons.1 hd with rfl | hd
        · exact newUsed
        · cases hd
      · intro d hd hn
        rcases List.mem_cons.1 hd with rfl | hd
        · exact absurd (newDir.symm.trans hn) (by simp)
        · cases hd
      · intro d hd i hi
        rcases List.mem_cons.1 hd with rfl | hd
        · exact moved.content _ List.mem_cons_self i hi
        · cases hd
    · rw [if_neg hw]
      exact moved
  rcases save_states e dst tmp s stop with ⟨h1, -⟩ | ⟨c, b, h1, -⟩ | ⟨c, b, h1, -⟩ | ⟨h1, -⟩ | ⟨h1, -⟩
  · rw [h1]; exact h
  · rw [h1]; exact mid c b
  · rw [h1]; exact cleaned c b
  · rw [h1, hf]; exact moved
  · rw [h1]; exact final

theorem Safe.power {dst : Nat} {good : Option α → Prop} {s s' : FS α} (h : Safe dst good s)
    (hp : PowerLoss s s') : Safe dst good s' := by
  obtain ⟨hd, hdata, hpast, hsync, hnext⟩ := hp
  have one : ∀ d ∈ s'.dir :: s'.past, d = s'.dir := by
    intro d hd
    rw [hpast] at hd
    simpa using hd
  refine ⟨?_, ?_, ?_⟩
  · intro d hm name i hi
    rw [one d hm] at hi
    obtain ⟨d0, hd0, he⟩ := hd name
    rw [hnext]
    exact h.used d0 hd0 name i (he ▸ hi)
  · intro d hm hn
    rw [one d hm] at hn
    obtain ⟨d0, hd0, he⟩ := hd dst
    exact h.missing d0 hd0 (he ▸ hn)
  · intro d hm i hi
    rw [one d hm] at hi
    obtain ⟨d0, hd0, he⟩ := hd dst
    obtain ⟨h1, h2⟩ := h.content d0 hd0 i (he ▸ hi)
    refine ⟨hsync i, ?_⟩
    rw [hdata i h1]
    exact h2

/-- At the beginning the directory and the destination are on the drive. -/
structure Settled (s : FS α) (dst : Nat) : Prop where
  past : s.past = []
  used : ∀ name i, s.dir name = some i → i < s.next
  synced : ∀ i, s.dir dst = some i → s.synced i = true

/-- **C44, power failures.** After any number of saves with `fsync`, each one finished or stopped at any
system call by an error, an interruption or a power failure, in any order, the destination is what it was at the
beginning or has the complete contents of one of the saves. -/
theorem C44_histories (dst : Nat) (s s' : FS α) (saves : List (Env α)) (h : Settled s dst)
    (hh : History dst s s' saves) (hf : ∀ e ∈ saves, e.fsync = true) :
    s'.read dst = s.read dst ∨ ∃ e ∈ saves, s'.read dst = some e.new := by
  have main : Safe dst (fun x => x = s.read dst ∨ ∃ e ∈ saves, x = some e.new) s' := by
    induction hh with
    | start =>
      refine ⟨?_, ?_, ?_⟩
      · intro d hd
        rw [h.past] at hd
        obtain rfl : d = s.dir := by simpa using hd
        exact h.used
      · intro d hd hn
        rw [h.past] at hd
        obtain rfl : d = s.dir := by simpa using hd
        left
        simp [FS.read, hn]
      · intro d hd i hi
        rw [h.past] at hd
        obtain rfl : d = s.dir := by simpa using hd
        refine ⟨h.synced i hi, .inl ?_⟩
        simp [FS.read, hi]
    | save hist e tmp stop hne hfresh ih =>
      have ih := ih fun e' he' => hf e' (List.mem_cons_of_mem _ he')
      refine (ih.mono ?_).save e stop hne (hf e List.mem_cons_self) ?_
      · rintro x (hx | ⟨e', he', hx⟩)
        · exact .inl hx
        · exact .inr ⟨e', List.mem_cons_of_mem _ he', hx⟩
      · exact .inr ⟨e, List.mem_cons_self, rfl⟩
    | power hist hp ih => exact (ih hf).power hp
  cases hd : s'.dir dst with
  | none =>
    have := main.missing _ List.mem_cons_self hd
    simpa [FS.read, hd] using this
  | some i =>
    have := (main.content _ List.mem_cons_self i hd).2
    simpa [FS.read, hd] using this

/-- **C44, durability.** After a save with `fsync` has returned normally (except on Windows, where the
directory is not synchronised), even a power failure leaves the new contents in the destination. -/
theorem C44_durable (e : Env α) (dst tmp : Nat) (s s' : FS α) (stop : Option (Nat × Stop))
    (h : Ready s dst tmp) (hf : e.fsync = true) (hw : e.windows = false)
    (hs : (save e dst tmp s stop).2 = .saved) (hp : PowerLoss (save e dst tmp s stop).1 s') :
    s'.read dst = some e.new := by
  have hfin : (save e dst tmp s stop).1 = e.final s dst tmp := by
    rcases save_states e dst tmp s stop with ⟨-, h2⟩ | ⟨c, b, -, h2 | h2⟩ | ⟨c, b, -, h2⟩ | ⟨-, h2, -⟩ | ⟨h1, -⟩
    · exact absurd hs h2
    · rw [h2] at hs; cases hs
    · rw [h2] at hs; cases hs
    · rw [h2] at hs; cases hs
    · exact absurd hs h2
    · exact h1
  rw [hfin] at hp
  simp only [Env.final, hf, hw, Bool.not_false, Bool.and_true, if_true] at hp
  obtain ⟨hd, hdata, -⟩ := hp
  obtain ⟨d, hd1, hd2⟩ := hd dst
  obtain rfl : d = (s.moved dst tmp e.new true).dir := by simpa using hd1
  have h3 : (s.moved dst tmp e.new true).dir dst = some s.next := by
    simp [FS.moved, upd, h.ne.symm]
  rw [h3] at hd2
  have h4 := hdata s.next (by simp [FS.moved, FS.mid, upd])
  simp only [FS.read, hd2, Option.map_some, h4]
  simp [FS.moved, FS.mid, upd]

/-! ### Where the claim is false -/

namespace Example

/-- A directory with one file (name 0) that contains 1. -/
def fs : FS Nat where
  dir := fun n => if n = 0 then some 0 else none
  past := []
  data := fun _ => 1
  synced := fun _ => true
  next := 1

def env (fsync : Bool) : Env Nat where
  dirWritable := true
  dstReadOnly := false
  fsync := fsync
  windows := false
  chunks := [7, 8]
  new := 2
  empty := 0

theorem ready : Ready fs 0 5 where
  ne := by decide
  fresh := rfl
  used := by
    intro name i h
    simp only [fs] at h ⊢
    by_cases hn : name = 0
    · rw [if_pos hn] at h; cases h; decide
    · rw [if_neg hn] at h; cases h

theorem settled : Settled fs 0 where
  past := rfl
  used := ready.used
  synced := fun _ _ => rfl

/-- A save that succeeds, and one that fails while the file is written. -/
example : (save (env true) 0 5 fs none).2 = .saved ∧ (save (env true) 0 5 fs none).1.read 0 = some 2 ∧
    (save (env true) 0 5 fs (some (2, .error))).2 = .raised ∧
    (save (env true) 0 5 fs (some (2, .error))).1.read 0 = some 1 ∧
    (save (env true) 0 5 fs (some (2, .error))).1.read 5 = none := by decide

/-- A history with an interrupted save and a power failure. -/
example : ∃ s', History 0 fs s' [env true] ∧ s'.read 0 = some 1 := by
  refine ⟨{ fs with data := upd fs.data 1 99, next := 2 },
    .power (.save .start (env true) 5 (some (1, .interrupt)) (by decide) rfl) ?_, by decide⟩
  refine ⟨fun name => ⟨fs.dir, List.mem_cons_of_mem _ List.mem_cons_self, rfl⟩, fun i hi => ?_, rfl, fun _ => rfl, rfl⟩
  by_cases h1 : i = 1
  · subst h1
    exact absurd hi (by decide)
  · simp [save, env, fs, Env.program, FS.acts, FS.act, upd, h1]

end Example

/-- Without `fsync` a power failure can leave a destination that has neither the previous nor the new
contents, although the save had returned normally. -/
theorem C44_violated_without_fsync :
    ∃ (e : Env Nat) (dst tmp : Nat) (s s' : FS Nat), Ready s dst tmp ∧ Settled s dst ∧ e.fsync = false ∧
      (save e dst tmp s none).2 = .saved ∧ PowerLoss (save e dst tmp s none).1 s' ∧
      s'.read dst ≠ s.read dst ∧ s'.read dst ≠ some e.new := by
  refine ⟨Example.env false, 0, 5, Example.fs,
    { dir := (save (Example.env false) 0 5 Example.fs none).1.dir, past := [],
      data := upd (fun _ => 1) 1 99, synced := fun _ => true, next := 2 },
    Example.ready, Example.settled, rfl, by decide, ⟨fun name => ⟨_, List.mem_cons_self, rfl⟩, ?_, rfl, fun _ => rfl, rfl⟩,
    by decide, by decide⟩
  intro i hi
  by_cases h1 : i = 1
  · subst h1
    exact absurd hi (by decide)
  · simp [save, Example.env, Example.fs, Env.program, FS.acts, FS.act, upd, h1]

/-- A temporary file is left behind when the save is interrupted by something that is not an `Exception`
(such as `KeyboardInterrupt`). -/
theorem C44_violated_interrupted :
    ∃ (e : Env Nat) (dst tmp : Nat) (s : FS Nat) (n : Nat), Ready s dst tmp ∧
      (save e dst tmp s (some (n, .interrupt))).1.read tmp ≠ none :=
  ⟨Example.env true, 0, 5, Example.fs, 3, Example.ready, by decide⟩

/-- When only the last system call (synchronising the directory) fails, the caller gets an error about a missing
file, although the destination has the complete new contents. -/
theorem C44_late_error_is_masked :
    ∃ (e : Env Nat) (dst tmp : Nat) (s : FS Nat) (n : Nat), Ready s dst tmp ∧
      (save e dst tmp s (some (n, .error))).2 = .notFound ∧
      (save e dst tmp s (some (n, .error))).1.read dst = some e.new :=
  ⟨Example.env true, 0, 5, Example.fs, 7, Example.ready, by decide, by decide⟩

end Toron.Save
