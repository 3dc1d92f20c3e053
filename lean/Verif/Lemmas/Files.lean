/-
Lemmas about dataspaces and files.
-/
import Verif.Spec.Files
import Verif.Props.StoreFrame

namespace Toron.Files

open Toron.Selectors (PyStr)
open Toron.Space (Store)

/-! ### Paths -/

theorem comps_ne_nil (p : PyStr) : comps p ≠ [] := by
  induction p with
  | nil => simp [comps]
  | cons c t ih => rw [comps]; split <;> [simp; (split <;> simp)]

theorem comps_append (a b : PyStr) : comps (a ++ '/' :: b) = comps a ++ comps b := by
  induction a with
  | nil => simp [comps]
  | cons c t ih =>
    rw [List.cons_append, comps, comps]
    split
    · rw [ih]; rfl
    · rw [ih]
      cases h : comps t with
      | nil => exact absurd h (comps_ne_nil t)
      | cons x xs => rfl

theorem comps_name {b : PyStr} (hb : '/' ∉ b) : comps b = [b] := by
  induction b with
  | nil => rfl
  | cons c t ih =>
    rw [comps, if_neg (fun h : c = '/' => hb (by rw [h]; exact List.mem_cons_self)), ih (fun h => hb (List.mem_cons_of_mem _ h))]

theorem enter_empty (k : Key) : enter k [] = k := by simp [enter]

theorem walk_slashes (k : Key) (p : PyStr) (n : Nat) :
    (comps (p ++ List.replicate n '/')).foldl enter k = (comps p).foldl enter k := by
  induction n with
  | zero => simp
  | succ n ih =>
    rw [List.replicate_succ', ← List.append_assoc, comps_append, List.foldl_append, ih]
    simp [comps, enter_empty]

theorem absKey_slashes (cwd : Key) (p : PyStr) (hp : p ≠ []) (n : Nat) :
    absKey cwd (p ++ List.replicate n '/') = absKey cwd p := by
  unfold absKey
  rw [walk_slashes]
  cases p with
  | nil => exact absurd rfl hp
  | cons c t => rfl

theorem absKey_under (cwd : Key) (d b : PyStr) (hd : d ≠ []) (hb : '/' ∉ b) :
    absKey cwd (d ++ '/' :: b) = enter (absKey cwd d) b := by
  unfold absKey
  rw [comps_append, List.foldl_append, comps_name hb]
  cases d with
  | nil => exact absurd rfl hd
  | cons c t => rfl

theorem absKey_root (cwd : Key) (b : PyStr) (hb : '/' ∉ b) : absKey cwd ('/' :: b) = enter [] b := by
  unfold absKey
  simp [comps, comps_name hb, enter_empty]

theorem absKey_name (cwd : Key) (b : PyStr) (hb : '/' ∉ b) : absKey cwd b = enter cwd b := by
  unfold absKey
  have h : b.head? ≠ some '/' := by
    intro h
    exact hb (List.mem_of_head? h)
  rw [if_neg h, comps_name hb]; rfl

theorem absKey_empty (cwd : Key) : absKey cwd [] = cwd := by
  simp [absKey, comps, enter_empty]

theorem absKey_slash (cwd : Key) : absKey cwd ['/'] = [] := by
  simp [absKey, comps, enter_empty]

/-- A name appended to a directory. -/
theorem absKey_trailing (cwd : Key) (d b : PyStr) (hb : '/' ∉ b) :
    absKey cwd (d ++ '/' :: b) = enter (absKey cwd (d ++ ['/'])) b := by
  by_cases hd : d = []
  · subst hd
    simp only [List.nil_append]
    rw [absKey_root cwd b hb, absKey_slash]
  · rw [absKey_under cwd d b hd hb, ← absKey_slashes cwd d hd 1]; rfl

theorem absKey_join (cwd : Key) (d b : PyStr) (hb : '/' ∉ b) :
    absKey cwd (join d b) = enter (absKey cwd d) b := by
  unfold join
  by_cases hd : d = []
  · subst hd
    simp only [true_or, if_true, List.nil_append]
    rw [absKey_name cwd b hb, absKey_empty]
  · by_cases hl : d.getLast? = some '/'
    · rw [if_pos (Or.inr hl)]
      obtain ⟨e, rfl⟩ := List.getLast?_eq_some_iff.1 hl
      rw [List.append_assoc, List.singleton_append, absKey_trailing cwd e b hb]
    · rw [if_neg (by simp [hd, hl]), absKey_under cwd d b hd hb]

theorem basename_noslash (p : PyStr) : '/' ∉ basename p := by
  intro h
  unfold basename at h
  have := List.all_eq_true.1 (List.all_takeWhile (l := p.reverse) (p := fun c => decide (c ≠ '/'))) _
    (List.mem_reverse.1 h)
  simp at this

theorem dropWhile_slash (l : PyStr) :
    ∃ n, l = List.replicate n '/' ++ l.dropWhile fun c => decide (c = '/') := by
  induction l with
  | nil => exact ⟨0, rfl⟩
  | cons c t ih =>
    obtain ⟨n, hn⟩ := ih
    by_cases hc : c = '/'
    · refine ⟨n + 1, ?_⟩
      rw [List.dropWhile_cons_of_pos (by simp [hc]), List.replicate_succ, List.cons_append, ← hn, hc]
    · exact ⟨0, by rw [List.dropWhile_cons_of_neg (by simp [hc])]; rfl⟩

theorem absKey_split (cwd : Key) (p : PyStr) :
    absKey cwd p = enter (absKey cwd (dirname p)) (basename p) := by
  have hb := basename_noslash p
  have hp : p = (p.reverse.dropWhile fun c => decide (c ≠ '/')).reverse ++ basename p := by
    unfold basename
    rw [← List.reverse_append, List.takeWhile_append_dropWhile, List.reverse_reverse]
  generalize hr : p.reverse.dropWhile (fun c => decide (c ≠ '/')) = r at hp
  have hdir : dirname p = (if r.dropWhile (fun c => decide (c = '/')) = [] then r
      else r.dropWhile fun c => decide (c = '/')).reverse := by
    unfold dirname; rw [hr]
  cases r with
  | nil =>
    rw [hdir]
    simp only [List.dropWhile_nil, if_true, List.reverse_nil]
    rw [absKey_empty, ← absKey_name cwd _ hb]
    congr 1
  | cons c t =>
    have hc : c = '/' := by
      have := List.head_dropWhile_not (l := p.reverse) (fun c => decide (c ≠ '/')) (by rw [hr]; simp)
      simp only [hr, List.head_cons] at this
      simpa using this
    subst hc
    have h1 : absKey cwd p = enter (absKey cwd (t.reverse ++ ['/'])) (basename p) := by
      conv_lhs => rw [hp]
      rw [List.reverse_cons, List.append_assoc, List.singleton_append, absKey_trailing cwd _ _ hb]
    rw [h1, hdir]
    congr 1
    by_cases he : (('/' :: t).dropWhile fun c => decide (c = '/')) = []
    · rw [if_pos he, List.reverse_cons]
    · rw [if_neg he]
      obtain ⟨n, hn⟩ := dropWhile_slash ('/' :: t)
      have : t.reverse ++ ['/'] = (('/' :: t).dropWhile fun c => decide (c = '/')).reverse ++
          List.replicate n '/' := by
        rw [← List.reverse_cons]
        conv_lhs => rw [hn]
        rw [List.reverse_append, List.reverse_replicate]
      rw [this, absKey_slashes _ _ (by simpa using he)]

/-! ### Files and objects -/

theorem put_files (w : World) (k : Key) (f : File) (x : Key) :
    (w.put k f).files x = if x = k then some f else w.files x := rfl

theorem stored_eq {w w' : World} {k : Key} (h : w'.files k = w.files k) : w'.stored k = w.stored k := by
  unfold World.stored; rw [h]

theorem shown_eq {w w' : World} (h : Handle)
    (hf : ∀ k m, h.place = .bound k m → w'.files k = w.files k) : w'.shown h = w.shown h := by
  unfold World.shown
  cases hp : h.place with
  | memory s => rfl
  | bound k m => exact stored_eq (hf k m hp)

/-- Saving either fails and changes nothing, or writes the file. -/
theorem save_cases (w : World) (i : Nat) (path : PyStr) :
    (∃ e, w.save i path = (w, .error e)) ∨
    ∃ hd s, w.spaces[i]? = some hd ∧ w.shown hd = some s ∧
      w.save i path = ((w.put (absKey w.cwd path) ⟨.space (closed s), true⟩).set i
        { hd with hint := if hd.hint.getD [] = [] then some path else hd.hint }, .ok ()) := by
  unfold World.save
  cases hi : w.spaces[i]? with
  | none => exact .inl ⟨_, rfl⟩
  | some hd =>
    dsimp only
    by_cases h1 : w.dirs (absKey w.cwd path).dropLast ≠ some true
    · rw [if_pos h1]; exact .inl ⟨_, rfl⟩
    rw [if_neg h1]
    by_cases h2 : ((w.files (absKey w.cwd path)).any fun f => !f.writable) = true
    · rw [if_pos h2]; exact .inl ⟨_, rfl⟩
    rw [if_neg h2]
    cases hs : w.shown hd with
    | none => exact .inl ⟨_, rfl⟩
    | some s =>
      dsimp only
      by_cases h3 : (w.dirs (absKey w.cwd path)).isSome = true
      · rw [if_pos h3]; exact .inl ⟨_, rfl⟩
      rw [if_neg h3]
      exact .inr ⟨hd, s, rfl, hs, rfl⟩

theorem save_ok {w : World} {i : Nat} {path : PyStr} (h : (w.save i path).2 = .ok ()) :
    ∃ hd s, w.spaces[i]? = some hd ∧ w.shown hd = some s ∧
      (w.save i path).1 = (w.put (absKey w.cwd path) ⟨.space (closed s), true⟩).set i
        { hd with hint := if hd.hint.getD [] = [] then some path else hd.hint } := by
  rcases save_cases w i path with ⟨e, he⟩ | ⟨hd, s, h1, h2, h3⟩
  · rw [he] at h; simp at h
  · exact ⟨hd, s, h1, h2, by rw [h3]⟩

theorem save_error {w : World} {i : Nat} {path : PyStr} {e} (h : (w.save i path).2 = .error e) :
    (w.save i path).1 = w := by
  rcases save_cases w i path with ⟨e, he⟩ | ⟨hd, s, h1, h2, h3⟩
  · rw [he]
  · rw [h3] at h; simp at h

/-- What saving leaves alone, and what it does to the objects. -/
theorem save_frame (w : World) (i : Nat) (path : PyStr) :
    (w.save i path).1.cwd = w.cwd ∧ (w.save i path).1.dirs = w.dirs ∧
    (∀ k, k ≠ absKey w.cwd path → (w.save i path).1.files k = w.files k) ∧
    (∀ j h', (w.save i path).1.spaces[j]? = some h' →
      ∃ h, w.spaces[j]? = some h ∧ h'.uid = h.uid ∧ h'.place = h.place ∧ (j ≠ i → h' = h)) ∧
    (w.save i path).1.spaces.length = w.spaces.length := by
  cases h : (w.save i path).2 with
  | error e =>
    rw [save_error h]
    exact ⟨rfl, rfl, fun _ _ => rfl, fun j h' hj => ⟨h', hj, rfl, rfl, fun _ => rfl⟩, rfl⟩
  | ok u =>
    obtain ⟨hd, s, h1, h2, h3⟩ := save_ok h
    rw [h3]
    refine ⟨rfl, rfl, fun k hk => ?_, fun j h' hj => ?_, ?_⟩
    · change (w.put _ _).files k = _
      rw [put_files, if_neg hk]
    · change (w.spaces.set i _)[j]? = some h' at hj
      rw [List.getElem?_set] at hj
      by_cases hij : i = j
      · subst hij
        rw [if_pos rfl] at hj
        by_cases hlt : i < w.spaces.length
        swap
        · rw [if_neg hlt] at hj; simp at hj
        rw [if_pos hlt] at hj
        injection hj with hj
        subst hj
        exact ⟨hd, h1, rfl, rfl, fun hne => absurd rfl hne⟩
      · rw [if_neg hij] at hj
        exact ⟨h', hj, rfl, rfl, fun _ => rfl⟩
    · change (w.spaces.set i _).length = _
      rw [List.length_set]

theorem save_handle (w : World) (i : Nat) (path : PyStr) {j : Nat} {h : Handle} (hj : w.spaces[j]? = some h) :
    ∃ h', (w.save i path).1.spaces[j]? = some h' ∧ h'.uid = h.uid ∧ h'.place = h.place ∧ (j ≠ i → h' = h) := by
  obtain ⟨_, _, _, hf, hl⟩ := save_frame w i path
  have hlt : j < (w.save i path).1.spaces.length := by
    rw [hl]; exact (List.getElem?_eq_some_iff.1 hj).1
  refine ⟨_, List.getElem?_eq_getElem hlt, ?_⟩
  obtain ⟨h0, h1, h2, h3, h4⟩ := hf j _ (List.getElem?_eq_getElem hlt)
  rw [hj] at h1
  injection h1 with h1
  subst h1
  exact ⟨h2, h3, h4⟩

theorem save_backupKey (w : World) (i : Nat) (path : PyStr) {j : Nat} (hj : j ≠ i) :
    (w.save i path).1.backupKey j = w.backupKey j := by
  obtain ⟨hc, _, _, hf, hl⟩ := save_frame w i path
  unfold World.backupKey
  rw [hc]
  cases h : w.spaces[j]? with
  | none =>
    have : (w.save i path).1.spaces[j]? = none := by
      rw [List.getElem?_eq_none_iff] at h ⊢; rw [hl]; exact h
    rw [this]
  | some hd =>
    obtain ⟨h', h1, _, _, h2⟩ := save_handle w i path h
    rw [h1, h2 hj]

/-- What backups leave alone. -/
theorem backup_frame (is : List Nat) : ∀ (w : World), is.Nodup →
    (w.backup is).1.cwd = w.cwd ∧
    (∀ k, (∀ i ∈ is, w.backupKey i ≠ some k) → (w.backup is).1.files k = w.files k) := by
  induction is with
  | nil => intro w _; exact ⟨rfl, fun _ _ => rfl⟩
  | cons i is ih =>
    intro w hn
    rw [World.backup]
    cases hi : w.spaces[i]? with
    | none => exact ⟨rfl, fun _ _ => rfl⟩
    | some hd =>
      dsimp only
      cases hh : hd.hint with
      | none => exact ⟨rfl, fun _ _ => rfl⟩
      | some p =>
        dsimp only
        have hk : w.backupKey i = some (absKey w.cwd (backupPath p)) := by
          unfold World.backupKey; rw [hi]; simp [hh]
        obtain ⟨f1, _, f3, _, _⟩ := save_frame w i (backupPath p)
        rcases hsv : w.save i (backupPath p) with ⟨w', r⟩
        rw [hsv] at f1 f3
        dsimp only at f1 f3
        cases r with
        | error e =>
          refine ⟨f1, fun k hkk => f3 k ?_⟩
          intro heq
          exact hkk i List.mem_cons_self (heq ▸ hk)
        | ok u =>
          dsimp only
          obtain ⟨g1, g2⟩ := ih w' (List.nodup_cons.1 hn).2
          refine ⟨g1.trans f1, fun k hkk => ?_⟩
          rw [g2 k, f3 k]
          · intro heq
            exact hkk i List.mem_cons_self (heq ▸ hk)
          · intro j hj
            have hji : j ≠ i := fun e => (List.nodup_cons.1 hn).1 (e ▸ hj)
            have := save_backupKey w i (backupPath p) hji
            rw [hsv] at this
            rw [this]
            exact hkk j (List.mem_cons_of_mem _ hj)

theorem backup_handle (is : List Nat) : ∀ (w : World) {j : Nat} {h : Handle}, w.spaces[j]? = some h →
    ∃ h', (w.backup is).1.spaces[j]? = some h' ∧ h'.uid = h.uid ∧ h'.place = h.place := by
  induction is with
  | nil => intro w j h hj; exact ⟨h, hj, rfl, rfl⟩
  | cons i is ih =>
    intro w j h hj
    rw [World.backup]
    cases hi : w.spaces[i]? with
    | none => exact ⟨h, hj, rfl, rfl⟩
    | some hd =>
      dsimp only
      cases hh : hd.hint with
      | none => exact ⟨h, hj, rfl, rfl⟩
      | some p =>
        dsimp only
        obtain ⟨h1, a1, a2, a3, _⟩ := save_handle w i (backupPath p) hj
        rcases hsv : w.save i (backupPath p) with ⟨w', r⟩
        rw [hsv] at a1
        cases r with
        | error e => exact ⟨h1, a1, a2, a3⟩
        | ok u =>
          obtain ⟨h2, b1, b2, b3⟩ := ih w' a1
          exact ⟨h2, b1, b2.trans a2, b3.trans a3⟩

theorem add_handle (w : World) (n : Handle) {j : Nat} {h : Handle} (hj : w.spaces[j]? = some h) :
    (w.add n).spaces[j]? = some h := by
  change (w.spaces ++ [n])[j]? = some h
  rw [List.getElem?_append_left (List.getElem?_eq_some_iff.1 hj).1, hj]

theorem bindFile_cases (w : World) (path : PyStr) (mode : Mode) (uid : PyStr) :
    (∃ e, w.bindFile path mode uid = (w, .error e)) ∨
    (∃ s, w.stored (absKey w.cwd path) = some s ∧
      w.bindFile path mode uid = (w.add ⟨s.uid, .bound (absKey w.cwd path) mode, some path⟩, .ok ())) ∨
    (w.files (absKey w.cwd path) = none ∧ mode = .rwc ∧
      w.bindFile path mode uid = ((w.put (absKey w.cwd path) ⟨.space (closed (Store.new uid)), true⟩).add
        ⟨uid, .bound (absKey w.cwd path) mode, some path⟩, .ok ())) := by
  unfold World.bindFile World.stored
  dsimp only
  cases hf : w.files (absKey w.cwd path) with
  | some f =>
    dsimp only
    by_cases h1 : mode ≠ .ro ∧ f.writable = false
    · rw [if_pos h1]; exact .inl ⟨_, rfl⟩
    rw [if_neg h1]
    obtain ⟨c, b⟩ := f
    cases c with
    | other => exact .inl ⟨_, rfl⟩
    | space s => exact .inr (.inl ⟨s, rfl, rfl⟩)
  | none =>
    dsimp only
    by_cases h1 : mode ≠ .rwc
    · rw [if_pos h1]; exact .inl ⟨_, rfl⟩
    rw [if_neg h1]
    by_cases h2 : dirname path = []
    · rw [if_pos h2]; exact .inl ⟨_, rfl⟩
    rw [if_neg h2]
    by_cases h3 : w.dirs (absKey w.cwd (dirname path)) ≠ some true
    · rw [if_pos h3]; exact .inl ⟨_, rfl⟩
    rw [if_neg h3]
    exact .inr (.inr ⟨rfl, not_not.1 h1, rfl⟩)

theorem readFile_cases (w : World) (path : PyStr) :
    (∃ e, w.readFile path = (w, .error e)) ∨
    (∃ s, w.stored (absKey w.cwd path) = some s ∧
      w.readFile path = (w.add ⟨s.uid, .memory (closed s), some path⟩, .ok ())) := by
  unfold World.readFile World.stored
  cases hf : w.files (absKey w.cwd path) with
  | none => exact .inl ⟨_, rfl⟩
  | some f =>
    obtain ⟨c, b⟩ := f
    cases c with
    | other => exact .inl ⟨_, rfl⟩
    | space s => exact .inr ⟨s, rfl, rfl⟩

theorem call_cases (w : World) (i : Nat) (op : Space.Op) :
    (∃ e, w.call i op = (w, .error e)) ∨
    (∃ h s, w.spaces[i]? = some h ∧ h.place = .memory s ∧
      w.call i op = (w.set i { h with place := .memory (Space.step op s).1 }, (Space.step op s).2.mapError .call)) ∨
    (∃ h k mode s wr, w.spaces[i]? = some h ∧ h.place = .bound k mode ∧ mode ≠ .ro ∧
      w.files k = some ⟨.space s, wr⟩ ∧
      w.call i op = (w.put k ⟨.space (Space.step op s).1, wr⟩, (Space.step op s).2.mapError .call)) := by
  unfold World.call
  cases hi : w.spaces[i]? with
  | none => exact .inl ⟨_, rfl⟩
  | some h =>
    dsimp only
    cases hp : h.place with
    | memory s => exact .inr (.inl ⟨h, s, rfl, hp, rfl⟩)
    | bound k mode =>
      dsimp only
      cases hf : w.files k with
      | none => exact .inl ⟨_, rfl⟩
      | some f =>
        obtain ⟨c, b⟩ := f
        cases c with
        | other => exact .inl ⟨_, rfl⟩
        | space s =>
          dsimp only
          by_cases hm : mode = .ro
          · rw [if_pos hm]; exact .inl ⟨_, rfl⟩
          · rw [if_neg hm]; exact .inr (.inr ⟨h, k, mode, s, b, rfl, hp, hm, hf, rfl⟩)

theorem set_handle (w : World) (i : Nat) (n : Handle) {j : Nat} {h : Handle} (hj : w.spaces[j]? = some h) :
    (w.set i n).spaces[j]? = some (if i = j then n else h) := by
  change (w.spaces.set i n)[j]? = _
  rw [List.getElem?_set]
  by_cases hij : i = j
  · rw [if_pos hij, if_pos hij, if_pos (hij ▸ (List.getElem?_eq_some_iff.1 hj).1)]
  · rw [if_neg hij, if_neg hij, hj]

/-- Objects keep their identity and their place. -/
theorem act_handle (w : World) (a : Act) {j : Nat} {h : Handle} (hj : w.spaces[j]? = some h) :
    ∃ h', (w.act a).1.spaces[j]? = some h' ∧ h'.uid = h.uid ∧
      ((∀ op, a ≠ .call j op) ∨ (∃ k m, h.place = .bound k m) → h'.place = h.place) := by
  cases a with
  | create uid cache => exact ⟨h, add_handle w _ hj, rfl, fun _ => rfl⟩
  | read path =>
    change ∃ h', (w.readFile path).1.spaces[j]? = some h' ∧ _
    rcases readFile_cases w path with ⟨e, he⟩ | ⟨s, _, he⟩
    · rw [he]; exact ⟨h, hj, rfl, fun _ => rfl⟩
    · rw [he]; exact ⟨h, add_handle w _ hj, rfl, fun _ => rfl⟩
  | bind path mode uid =>
    change ∃ h', (w.bindFile path mode uid).1.spaces[j]? = some h' ∧ _
    rcases bindFile_cases w path mode uid with ⟨e, he⟩ | ⟨s, _, he⟩ | ⟨_, _, he⟩
    · rw [he]; exact ⟨h, hj, rfl, fun _ => rfl⟩
    · rw [he]; exact ⟨h, add_handle w _ hj, rfl, fun _ => rfl⟩
    · rw [he]; exact ⟨h, add_handle (w.put _ _) _ hj, rfl, fun _ => rfl⟩
  | call i op =>
    change ∃ h', (w.call i op).1.spaces[j]? = some h' ∧ _
    rcases call_cases w i op with ⟨e, he⟩ | ⟨h0, s, h1, h2, he⟩ | ⟨_, _, _, _, _, _, _, _, _, he⟩
    · rw [he]; exact ⟨h, hj, rfl, fun _ => rfl⟩
    · rw [he]
      refine ⟨_, set_handle w i _ hj, ?_, ?_⟩
      · by_cases hij : i = j
        · rw [if_pos hij]
          subst hij
          rw [hj] at h1
          injection h1 with h1
          rw [h1]
        · rw [if_neg hij]
      · intro hor
        by_cases hij : i = j
        · subst hij
          rw [hj] at h1
          injection h1 with h1
          rcases hor with hor | ⟨k, m, hor⟩
          · exact absurd rfl (hor op)
          · rw [h1, h2] at hor; simp at hor
        · rw [if_neg hij]
    · rw [he]; exact ⟨h, hj, rfl, fun _ => rfl⟩
  | save i path =>
    obtain ⟨h', h1, h2, h3, _⟩ := save_handle w i path hj
    exact ⟨h', h1, h2, fun _ => h3⟩
  | setHint i path =>
    unfold World.act
    dsimp only
    cases hi : w.spaces[i]? with
    | none => exact ⟨h, hj, rfl, fun _ => rfl⟩
    | some h0 =>
      refine ⟨_, set_handle w i _ hj, ?_, ?_⟩ <;> by_cases hij : i = j
      · rw [if_pos hij]; subst hij; rw [hj] at hi; injection hi with hi; rw [hi]
      · rw [if_neg hij]
      · intro _; rw [if_pos hij]; subst hij; rw [hj] at hi; injection hi with hi; rw [hi]
      · intro _; rw [if_neg hij]
  | backup is =>
    obtain ⟨h', h1, h2, h3⟩ := backup_handle is w hj
    exact ⟨h', h1, h2, fun _ => h3⟩
  | chdir path =>
    unfold World.act
    dsimp only
    split_ifs <;> exact ⟨h, hj, rfl, fun _ => rfl⟩

theorem add_files (w : World) (h : Handle) : (w.add h).files = w.files := rfl
theorem set_files (w : World) (i : Nat) (h : Handle) : (w.set i h).files = w.files := rfl

/-- A file that an action may not write stays as it is. -/
theorem act_files (w : World) (a : Act) (hb : ∀ is, a = .backup is → is.Nodup) (k : Key)
    (hk : ¬ w.mayWrite k a) : (w.act a).1.files k = w.files k := by
  cases a with
  | create uid cache => rfl
  | read path =>
    change (w.readFile path).1.files k = _
    rcases readFile_cases w path with ⟨e, he⟩ | ⟨s, _, he⟩ <;> rw [he] <;> rfl
  | bind path mode uid =>
    change (w.bindFile path mode uid).1.files k = _
    rcases bindFile_cases w path mode uid with ⟨e, he⟩ | ⟨s, _, he⟩ | ⟨h1, h2, he⟩
    · rw [he]
    · rw [he]; rfl
    · rw [he]
      change (w.put _ _).files k = _
      rw [put_files, if_neg]
      intro heq
      exact hk ⟨heq.symm, h2, heq ▸ h1⟩
  | call i op =>
    change (w.call i op).1.files k = _
    rcases call_cases w i op with ⟨e, he⟩ | ⟨h0, s, h1, h2, he⟩ | ⟨h, k', m, s, wr, h1, h2, h3, h4, he⟩
    · rw [he]
    · rw [he]; rfl
    · rw [he]
      change (w.put _ _).files k = _
      rw [put_files, if_neg]
      intro heq
      subst heq
      cases m with
      | ro => exact h3 rfl
      | rw => exact hk (.inl ⟨h, h1, h2⟩)
      | rwc => exact hk (.inr ⟨h, h1, h2⟩)
  | save i path =>
    exact (save_frame w i path).2.2.1 k fun heq => hk heq.symm
  | setHint i path =>
    unfold World.act
    dsimp only
    cases hi : w.spaces[i]? <;> rfl
  | backup is =>
    exact (backup_frame is w (hb is rfl)).2 k fun i hi h => hk ⟨i, hi, h⟩
  | chdir path =>
    unfold World.act
    dsimp only
    split_ifs <;> rfl

/-! ### What is always so -/

/-- An object has data that calls can produce, and, in memory, its own identity. -/
def Sound (w : World) (h : Handle) : Prop :=
  ∃ s, w.shown h = some s ∧ Space.Reachable s ∧ ∀ s', h.place = .memory s' → h.uid = s'.uid

structure Inv (w : World) : Prop where
  stored : ∀ k s, w.stored k = some s → Space.Reachable s
  spaces : ∀ (i : Nat) (h : Handle), w.spaces[i]? = some h → Sound w h

theorem reachable_new (uid : PyStr) : Space.Reachable (Store.new uid) := ⟨uid, [], rfl⟩

theorem reachable_step {s : Store} (hs : Space.Reachable s) (op : Space.Op) : Space.Reachable (Space.step op s).1 := by
  obtain ⟨uid, ops, rfl⟩ := hs
  exact ⟨uid, ops ++ [op], by simp [Space.run]⟩

theorem reachable_closed {s : Store} (hs : Space.Reachable s) : Space.Reachable (closed s) :=
  reachable_step hs .reopen

theorem step_uid {s : Store} (hs : Space.Reachable s) (op : Space.Op) : (Space.step op s).1.uid = s.uid :=
  Space.C76_unrelated s hs op .identity (by cases op <;> simp [Space.Op.may])

theorem inv_put {w : World} (hw : Inv w) (k : Key) {s : Store} (hs : Space.Reachable s) (b : Bool) :
    Inv (w.put k ⟨.space s, b⟩) := by
  have hst : ∀ k', (w.put k ⟨.space s, b⟩).stored k' = if k' = k then some s else w.stored k' := by
    intro k'
    unfold World.stored
    rw [put_files]
    by_cases h : k' = k
    · rw [if_pos h, if_pos h]
    · rw [if_neg h, if_neg h]
  constructor
  · intro k' s' h
    rw [hst] at h
    by_cases hk : k' = k
    · rw [if_pos hk] at h; injection h with h; exact h ▸ hs
    · rw [if_neg hk] at h; exact hw.stored k' s' h
  · intro i h hi
    obtain ⟨s', h1, h2, h3⟩ := hw.spaces i h hi
    unfold World.shown at h1
    unfold Sound World.shown
    cases hp : h.place with
    | memory s0 => rw [hp] at h1 h3; exact ⟨s', h1, h2, h3⟩
    | bound k' m =>
      rw [hp] at h1
      dsimp only at h1 ⊢
      rw [hst]
      by_cases hk : k' = k
      · rw [if_pos hk]; exact ⟨s, rfl, hs, by intro _ hh; cases hh⟩
      · rw [if_neg hk]; exact ⟨s', h1, h2, by intro _ hh; cases hh⟩

theorem inv_add {w : World} (hw : Inv w) {n : Handle} (hn : Sound w n) : Inv (w.add n) := by
  refine ⟨hw.stored, fun i h hi => ?_⟩
  change (w.spaces ++ [n])[i]? = some h at hi
  have := List.mem_of_getElem? hi
  rw [List.mem_append, List.mem_singleton] at this
  rcases this with h1 | h1
  · obtain ⟨j, hj⟩ := List.getElem?_of_mem h1
    exact hw.spaces j h hj
  · exact h1 ▸ hn

theorem inv_set {w : World} (hw : Inv w) (i : Nat) {n : Handle} (hn : Sound w n) : Inv (w.set i n) := by
  refine ⟨hw.stored, fun j h hj => ?_⟩
  change (w.spaces.set i n)[j]? = some h at hj
  rcases List.mem_or_eq_of_mem_set (List.mem_of_getElem? hj) with h1 | h1
  · obtain ⟨j', hj'⟩ := List.getElem?_of_mem h1
    exact hw.spaces j' h hj'
  · exact h1 ▸ hn

theorem inv_save {w : World} (hw : Inv w) (i : Nat) (path : PyStr) : Inv (w.save i path).1 := by
  rcases save_cases w i path with ⟨e, he⟩ | ⟨hd, s, h1, h2, h3⟩
  · rw [he]; exact hw
  · rw [h3]
    obtain ⟨s', a1, a2, _⟩ := hw.spaces i hd h1
    rw [h2] at a1
    injection a1 with a1
    have hp := inv_put hw (absKey w.cwd path) (reachable_closed (a1 ▸ a2)) true
    exact inv_set hp i (hp.spaces i hd h1)

theorem inv_backup (is : List Nat) : ∀ {w : World}, Inv w → Inv (w.backup is).1 := by
  induction is with
  | nil => intro w hw; exact hw
  | cons i is ih =>
    intro w hw
    rw [World.backup]
    cases hi : w.spaces[i]? with
    | none => exact hw
    | some hd =>
      dsimp only
      cases hh : hd.hint with
      | none => exact hw
      | some p =>
        dsimp only
        have := inv_save hw i (backupPath p)
        rcases hsv : w.save i (backupPath p) with ⟨w', r⟩
        rw [hsv] at this
        cases r with
        | error e => exact this
        | ok u => exact ih this

theorem inv_act {w : World} (hw : Inv w) (a : Act) : Inv (w.act a).1 := by
  cases a with
  | create uid cache =>
    refine inv_add hw ?_
    by_cases hc : cache = true
    · rw [if_pos hc]
      exact ⟨_, rfl, reachable_closed (reachable_new uid), by intro s' h; injection h with h; rw [← h]; rfl⟩
    · rw [if_neg hc]
      exact ⟨_, rfl, reachable_new uid, by intro s' h; injection h with h; rw [← h]; rfl⟩
  | read path =>
    change Inv (w.readFile path).1
    rcases readFile_cases w path with ⟨e, he⟩ | ⟨s, hs, he⟩
    · rw [he]; exact hw
    · rw [he]
      exact inv_add hw ⟨_, rfl, reachable_closed (hw.stored _ s hs), by intro s' h; injection h with h; rw [← h]; rfl⟩
  | bind path mode uid =>
    change Inv (w.bindFile path mode uid).1
    rcases bindFile_cases w path mode uid with ⟨e, he⟩ | ⟨s, hs, he⟩ | ⟨_, _, he⟩
    · rw [he]; exact hw
    · rw [he]
      exact inv_add hw ⟨s, hs, hw.stored _ s hs, by intro s' h; cases h⟩
    · rw [he]
      have hr := reachable_closed (reachable_new uid)
      refine inv_add (inv_put hw _ hr true) ⟨_, ?_, hr, by intro s' h; cases h⟩
      unfold World.shown World.stored
      dsimp only
      rw [put_files, if_pos rfl]
  | call i op =>
    change Inv (w.call i op).1
    rcases call_cases w i op with ⟨e, he⟩ | ⟨h0, s, h1, h2, he⟩ | ⟨h, k, m, s, wr, h1, h2, h3, h4, he⟩
    · rw [he]; exact hw
    · rw [he]
      obtain ⟨s', a1, a2, a3⟩ := hw.spaces i h0 h1
      unfold World.shown at a1
      rw [h2] at a1
      injection a1 with a1
      subst a1
      refine inv_set hw i ⟨_, rfl, reachable_step a2 op, ?_⟩
      intro s' h
      injection h with h
      rw [← h, step_uid a2 op]
      exact a3 s h2
    · rw [he]
      refine inv_put hw k (reachable_step (hw.stored k s ?_) op) wr
      unfold World.stored; rw [h4]
  | save i path => exact inv_save hw i path
  | setHint i path =>
    unfold World.act
    dsimp only
    cases hi : w.spaces[i]? with
    | none => exact hw
    | some h0 =>
      obtain ⟨s', a1, a2, a3⟩ := hw.spaces i h0 hi
      exact inv_set hw i ⟨s', a1, a2, a3⟩
  | backup is => exact inv_backup is hw
  | chdir path =>
    unfold World.act
    dsimp only
    split_ifs
    · exact ⟨hw.stored, hw.spaces⟩
    · exact hw

theorem inv_of_made {w : World} (hw : w.Made) : Inv w := by
  obtain ⟨w0, acts, ⟨h1, h2⟩, rfl⟩ := hw
  have h0 : Inv w0 := by
    constructor
    · intro k s h
      rw [h2] at h
      cases h
    · intro i h hi
      rw [h1] at hi
      simp at hi
  clear h1 h2
  unfold World.run
  induction acts generalizing w0 with
  | nil => exact h0
  | cons a t ih =>
    rw [List.foldl_cons]
    exact ih _ (inv_act h0 a)

end Toron.Files
