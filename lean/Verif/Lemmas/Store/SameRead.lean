/-
Readers of the same data, their translations and their outputs.
-/
import Verif.Lemmas.Store.SameContent

namespace Toron.Space

open Toron.Selectors (PyStr Sel CaseMap getGreatestUniqueSpecificity)

theorem BothOr.of {α : Type} {R : α → α → Prop} {x y : Except Err α} (h : ∀ a, x = .ok a → ∃ b, y = .ok b ∧ R a b)
    (h' : ∀ b, y = .ok b → ∃ a, x = .ok a) : BothOr R x y := by
  cases x with
  | ok a =>
    obtain ⟨b, rfl, hb⟩ := h a rfl
    exact .ok hb
  | error e =>
    cases y with
    | ok b =>
      obtain ⟨a, ha⟩ := h' b rfl
      cases ha
    | error e' => exact .error e e'

theorem distinct_perm {κ : Type} [DecidableEq κ] {l l' : List κ} (h : ∀ x, x ∈ l ↔ x ∈ l') :
    (distinct l).Perm (distinct l') := by
  rw [List.perm_ext_iff_of_nodup (nodup_distinct _) (nodup_distinct _)]
  intro x
  rw [mem_distinct, mem_distinct, h]

theorem Reader.new_same {d d' : List (Nat × Attrs × Option ℚ)} (h : d'.Perm d) : (Reader.new d).Same (Reader.new d') where
  rows := h.map _
  keys := by
    refine sortedBy_congr _ ?_ ?_ _ _ (distinct_perm fun x => ?_) ?_
    · intro a b c h1 h2
      simp only [decide_eq_true_eq] at *
      exact List.le_trans h1 h2
    · intro a b
      simpa using List.le_total _ _
    · simp only [List.mem_flatMap, h.mem_iff]
    · intro x _ y _ h1 h2
      simp only [decide_eq_true_eq] at h1 h2
      have he := List.le_antisymm h1 h2
      have hinj : Function.Injective Char.toNat := by
        intro a b h
        exact Char.ext (UInt32.toNat_inj.1 h)
      exact hinj.list_map he
  attrs := by
    intro a
    simp only [Reader.new, mem_distinct, List.mem_map, h.mem_iff]

theorem Reader.Same.symm {r r' : Reader} (h : r.Same r') : r'.Same r :=
  ⟨h.rows.symm, h.keys.symm, fun a => (h.attrs a).symm⟩

theorem reader_same {s t : Store} (hrs : Reachable s) (hrt : Reachable t) (h : SameContent s t) (hgs : s.Grouped)
    (hgt : t.Grouped) (hwf : s.SelectorsWF) {cm : CaseMap} {sels : List Sel} (hsel : ∀ x ∈ sels, x.WF) {quantize : Bool}
    {sumBy : List PyStr} {r : Reader} (hr : s.reader cm sels quantize sumBy = .ok r) :
    ∃ r', t.reader cm sels quantize sumBy = .ok r' ∧ r.Same r' := by
  unfold Store.reader at hr ⊢
  rcases hc : s.call cm sels quantize with e | rows
  · rw [hc] at hr; cases hr
  rw [hc] at hr
  cases hr
  obtain ⟨rows', h1, h2⟩ := call_same hrs hrt h hgs hgt hwf hsel hc
  rw [h1]
  refine ⟨_, rfl, Reader.new_same ?_⟩
  have hk : t.keepAttrs sumBy = s.keepAttrs sumBy := by
    funext a
    unfold Store.keepAttrs Store.getDomain
    rw [h.domain]
  rw [hk]
  exact h2.map _

theorem sqlSum_perm {vs vs' : List (Option ℚ)} (h : vs'.Perm vs) : sqlSum vs' = sqlSum vs := by
  unfold sqlSum
  have hp : (vs'.filterMap id).Perm (vs.filterMap id) := h.filterMap _
  cases hv : vs.filterMap id with
  | nil => rw [hv] at hp; rw [List.perm_nil.1 hp]
  | cons x xs =>
    rw [hv] at hp
    cases hv' : vs'.filterMap id with
    | nil => rw [hv'] at hp; exact absurd hp (by simp)
    | cons y ys =>
      rw [hv'] at hp
      dsimp only
      rw [hp.sum_eq]

theorem output_same {r r' : Reader} (h : r.Same r') (s t : Store) (hi : t.index = s.index)
    {out : List (List PyStr × List (Option PyStr) × Option ℚ)} (ho : r.output s = .ok out) :
    ∃ out', r'.output t = .ok out' ∧ out'.Perm out := by
  unfold Reader.output at ho ⊢
  have hp : (distinct (r.rows.map fun x => (x.index, x.attrs))).Perm (distinct (r'.rows.map fun x => (x.index, x.attrs))) :=
    distinct_perm fun x => by simp only [List.mem_map, h.rows.mem_iff]
  obtain ⟨o, h1, h2⟩ := flatMapE_perm hp ho
  refine ⟨o, ?_, h2⟩
  rw [← h1]
  refine flatMapE_congr fun k _ => ?_
  have hl : t.labelsOf k.1 = s.labelsOf k.1 := by unfold Store.labelsOf; rw [hi]
  have hv : sqlSum (r'.valuesAt k) = sqlSum (r.valuesAt k) := sqlSum_perm ((h.rows.filter _).map _)
  rw [hl, hv, h.keys]

theorem lookupLink_links {c : Attrs → Except Err Nat} {l : List Attrs} {links : List (Attrs × Nat)}
    (h : flatMapE (fun a => do
      let x ← c a
      .ok [(a, x)]) l = .ok links) (a : Attrs) :
    lookupLink links a = if a ∈ l then (c a).toOption else none := by
  induction l generalizing links with
  | nil => cases h; rfl
  | cons b bs ih =>
    rw [flatMapE] at h
    cases hb : c b with
    | error e => rw [hb] at h; cases h
    | ok x =>
      rw [hb] at h
      simp only [bind, Except.bind] at h ih
      split at h
      · cases h
      rename_i rest hrest
      cases h
      have := ih hrest
      unfold lookupLink at this ⊢
      rw [List.cons_append, List.nil_append, List.find?_cons]
      by_cases he : b = a
      · subst he
        simp [hb, Except.toOption]
      · simp only [beq_eq_false_iff_ne.2 he, this, List.mem_cons, Ne.symm he, false_or]

private theorem okBind {α β : Type} (a : α) (f : α → Except Err β) : (Except.ok a >>= f) = f a := rfl

private theorem bindOk {α β : Type} {x : Except Err α} {f : α → Except Err β} {b : β} (h : (x >>= f) = .ok b) :
    ∃ a, x = .ok a ∧ f a = .ok b := by
  cases x with
  | error e => cases h
  | ok a => exact ⟨a, rfl, h⟩

theorem flatMapE_each {α β : Type} {f : α → Except Err (List β)} {l : List α} {r : List β} (h : flatMapE f l = .ok r) :
    ∀ x ∈ l, ∃ y, f x = .ok y := by
  induction l generalizing r with
  | nil => simp
  | cons b bs ih =>
    rw [flatMapE] at h
    cases hb : f b with
    | error e => rw [hb] at h; cases h
    | ok x =>
      rw [hb] at h
      cases hbs : flatMapE f bs with
      | error e => rw [hbs] at h; cases h
      | ok y =>
        intro z hz
        rcases List.mem_cons.1 hz with rfl | hz
        · exact ⟨x, hb⟩
        · exact ih hbs z hz

theorem translate_same {r r' : Reader} (h : r.Same r') {cm : CaseMap} {src src' trg : Store} (hu : src'.uid = src.uid)
    (hh : src'.indexHash = src.indexHash) {quantize : Bool} {x : Reader} (hx : r.translate cm src trg quantize = .ok x) :
    ∃ x', r'.translate cm src' trg quantize = .ok x' ∧ x.Same x' := by
  unfold Reader.translate at hx ⊢
  rw [hu, hh]
  cases hc : trg.linkChooser src.uid (src.indexHash.map Int.ofNat) with
  | error e => rw [hc] at hx; cases hx
  | ok ch =>
    rw [hc] at hx
    simp only [okBind] at hx ⊢
    rcases hl : flatMapE (fun a => do
        let l ← getGreatestUniqueSpecificity cm a ch.2 ch.1
        .ok [(a, l)]) r.attrData with e | links
    · rw [hl] at hx; cases hx
    rw [hl] at hx
    have hex : ∃ links', flatMapE (fun a => do
        let l ← getGreatestUniqueSpecificity cm a ch.2 ch.1
        .ok [(a, l)]) r'.attrData = .ok links' := by
      refine flatMapE_exists fun a ha => ?_
      exact flatMapE_each hl a ((h.attrs a).1 ha)
    obtain ⟨links', hl'⟩ := hex
    rw [hl']
    simp only [okBind] at hx ⊢
    have hlook : ∀ a, lookupLink links' a = lookupLink links a := by
      intro a
      rw [lookupLink_links hl, lookupLink_links hl']
      simp only [h.attrs]
    obtain ⟨rows, hr, hx⟩ := bindOk hx
    cases hx
    obtain ⟨rows', h1, h2⟩ := flatMapE_perm h.rows.symm hr
    refine ⟨{ r' with rows := rows' }, ?_, ⟨h2, h.keys, h.attrs⟩⟩
    simp only [hlook]
    rw [h1]
    rfl

end Toron.Space
