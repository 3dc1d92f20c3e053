/-
Lemmas about reading tables with mappings.
-/
import Verif.Spec.MappingCsv
import Verif.Lemmas.Store.Read
import Verif.Lemmas.Distinct

namespace Toron.MappingCsv

open Toron.Selectors (PyStr)
open Toron.Space
open Toron.IndexCode (isCode toId toCode)

theorem bindE_ok {α β : Type} {e : Except Err α} {f : α → Except Err β} {b : β} :
    (e >>= f) = .ok b ↔ ∃ a, e = .ok a ∧ f a = .ok b := by
  cases e with
  | error e => exact ⟨fun h => (nomatch h), fun ⟨_, h, _⟩ => (nomatch h)⟩
  | ok a => exact ⟨fun h => ⟨a, rfl, h⟩, fun ⟨a', h, h'⟩ => by cases h; exact h'⟩

theorem mapM_forall₂ {α β : Type} {f : α → Except Err β} {l : List α} {out : List β} :
    l.mapM f = .ok out ↔ List.Forall₂ (fun a b => f a = .ok b) l out := by
  induction l generalizing out with
  | nil =>
    rw [List.mapM_nil]
    constructor
    · intro h; cases h; exact .nil
    · intro h; cases h; rfl
  | cons a l ih =>
    rw [List.mapM_cons, bindE_ok]
    constructor
    · rintro ⟨b, hb, h⟩
      rw [bindE_ok] at h
      obtain ⟨bs, hbs, h⟩ := h
      cases h
      exact .cons hb (ih.1 hbs)
    · intro h
      cases h with
      | cons hb hbs => exact ⟨_, hb, bindE_ok.2 ⟨_, ih.2 hbs, rfl⟩⟩

theorem valuePosition_some {edge : PyStr → Option PyStr} {link : PyStr} {header : List PyStr} {v : Nat} :
    valuePosition edge link header = some v ↔ FirstLink edge link header v := by
  have hb : ∀ c, (c == link || edge c == some link) = true ↔ NamesLink edge link c := by
    intro c; simp [NamesLink]
  unfold valuePosition FirstLink
  rw [List.findIdx?_eq_some_iff_getElem]
  constructor
  · rintro ⟨hv, h1, h2⟩
    refine ⟨⟨header[v], List.getElem?_eq_getElem hv, (hb _).1 h1⟩, fun j c hj hc hn => ?_⟩
    obtain ⟨hj', rfl⟩ := List.getElem?_eq_some_iff.1 hc
    exact h2 j hj ((hb _).2 hn)
  · rintro ⟨⟨c, hc, hn⟩, h2⟩
    obtain ⟨hv, rfl⟩ := List.getElem?_eq_some_iff.1 hc
    refine ⟨hv, (hb _).2 hn, fun j hj hn' => ?_⟩
    exact h2 j _ hj (List.getElem?_eq_getElem (by omega)) ((hb _).1 hn')

theorem codesIn_ok {uid : List Byte} {n : Nat} {row : List PyStr} {l : List Nat} (h : codesIn uid n row = .ok l) :
    (∀ p, p ∈ l ↔ n ≤ p ∧ HasCode uid row (p - n)) ∧ ∀ c ∈ row, ∃ b, isCode c uid = .ok b := by
  induction row generalizing n l with
  | nil =>
    cases h
    simp [HasCode]
  | cons c cs ih =>
    unfold codesIn at h
    rw [bindE_ok] at h
    obtain ⟨b, hb, h⟩ := h
    rw [bindE_ok] at h
    obtain ⟨m, hm, h⟩ := h
    cases h
    obtain ⟨i1, i2⟩ := ih hm
    have hhead : HasCode uid (c :: cs) 0 ↔ b = true := by
      unfold HasCode
      simp only [List.getElem?_cons_zero, Option.some.injEq, exists_eq_left', hb, Except.ok.injEq]
    have htail : ∀ p, n + 1 ≤ p → (HasCode uid (c :: cs) (p - n) ↔ HasCode uid cs (p - (n + 1))) := by
      intro p hp
      obtain ⟨k, rfl⟩ := Nat.exists_eq_add_of_le hp
      have e1 : n + 1 + k - n = k + 1 := by omega
      have e2 : n + 1 + k - (n + 1) = k := by omega
      rw [e1, e2]
      unfold HasCode
      simp only [List.getElem?_cons_succ]
    refine ⟨fun p => ?_, fun x hx => ?_⟩
    · have key : p ∈ (if b = true then n :: m else m) ↔ (p = n ∧ b = true) ∨ p ∈ m := by
        cases b <;> simp
      rw [key, i1]
      constructor
      · rintro (⟨rfl, hb⟩ | ⟨hp, hh⟩)
        · exact ⟨Nat.le_refl _, by rw [Nat.sub_self]; exact hhead.2 hb⟩
        · exact ⟨by omega, (htail p hp).2 hh⟩
      · rintro ⟨hp, hh⟩
        by_cases he : p = n
        · subst he
          rw [Nat.sub_self] at hh
          exact .inl ⟨rfl, hhead.1 hh⟩
        · exact .inr ⟨by omega, (htail p (by omega)).1 hh⟩
    · rcases List.mem_cons.1 hx with rfl | hx
      · exact ⟨b, hb⟩
      · exact i2 x hx

theorem codesIn_exists {uid : List Byte} {n : Nat} {row : List PyStr} (h : ∀ c ∈ row, ∃ b, isCode c uid = .ok b) :
    ∃ l, codesIn uid n row = .ok l := by
  induction row generalizing n with
  | nil => exact ⟨[], rfl⟩
  | cons c cs ih =>
    obtain ⟨b, hb⟩ := h c (by simp)
    obtain ⟨l, hl⟩ := ih (n := n + 1) fun c hc => h c (by simp [hc])
    exact ⟨_, by unfold codesIn; rw [hb]; exact bindE_ok.2 ⟨b, rfl, bindE_ok.2 ⟨l, hl, rfl⟩⟩⟩

theorem hits_ok {uid : List Byte} {rows : List (List PyStr)} {l : List Nat} (h : flatMapE (codesIn uid 0) rows = .ok l) :
    ∀ p, p ∈ l ↔ ∃ row ∈ rows, HasCode uid row p := by
  induction rows generalizing l with
  | nil => cases h; simp
  | cons r rs ih =>
    unfold flatMapE at h
    rw [bindE_ok] at h
    obtain ⟨a, ha, h⟩ := h
    rw [bindE_ok] at h
    obtain ⟨b, hb, h⟩ := h
    cases h
    intro p
    rw [List.mem_append, ih hb, (codesIn_ok ha).1]
    simp

theorem distinct_single {l : List Nat} {p : Nat} : distinct l = [p] ↔ ∀ q, q ∈ l ↔ q = p := by
  constructor
  · intro h q
    rw [← mem_distinct, h]
    simp
  · intro h
    have h1 : ∀ q, q ∈ distinct l ↔ q ∈ [p] := by
      intro q
      rw [mem_distinct, h]
      simp
    have := (List.perm_ext_iff_of_nodup (nodup_distinct l) (List.nodup_singleton p)).2 h1
    exact List.perm_singleton.1 this

theorem codePosition_ok {uid : List Byte} {rows : List (List PyStr)} {r : Option Nat}
    (h : codePosition uid rows = .ok r) :
    ∀ p, r = some p ↔ ∀ q, (∃ row ∈ rows, HasCode uid row q) ↔ q = p := by
  unfold codePosition at h
  rw [bindE_ok] at h
  obtain ⟨l, hl, h⟩ := h
  intro p
  have hh := hits_ok hl
  simp only [← hh]
  rw [← distinct_single]
  split at h
  · rename_i x he
    cases h
    rw [he]
    simp
  · rename_i hne
    cases h
    exact ⟨fun h => (nomatch h), fun h => absurd h (hne p)⟩

theorem codePosition_exists {uid : List Byte} {rows : List (List PyStr)}
    (h : ∀ row ∈ rows, ∀ c ∈ row, ∃ b, isCode c uid = .ok b) : ∃ r, codePosition uid rows = .ok r := by
  obtain ⟨l, hl⟩ := flatMapE_exists (f := codesIn uid 0) (l := rows) fun row hrow => codesIn_exists (h row hrow)
  unfold codePosition
  rw [hl]
  show ∃ r, (match distinct l with
    | [p] => Except.ok (some p)
    | _ => Except.ok none) = Except.ok r
  split
  · exact ⟨_, rfl⟩
  · exact ⟨_, rfl⟩

theorem searchCode_some {uid : List Byte} {sample : List (List PyStr)} {p q : Option Nat}
    (h : searchCode uid sample p = .ok q) {x : Nat} (hq : q = some x) :
    p = some x ∨ p = none ∧ ∀ y, (∃ row ∈ sample, HasCode uid row y) ↔ y = x := by
  cases p with
  | some a => cases h; exact .inl hq
  | none => exact .inr ⟨rfl, (codePosition_ok h x).1 hq⟩

theorem scan_found {u1 u2 : List Byte} {n : Nat} {p1 p2 : Option Nat} {rows : List (List PyStr)}
    {q : Option Nat × Option Nat} (h : scan u1 u2 n p1 p2 rows = .ok q) :
    (∀ x, q.1 = some x → p1 = some x ∨ ∃ row ∈ rows.take (8 * n), HasCode u1 row x) ∧
    (∀ x, q.2 = some x → p2 = some x ∨ ∃ row ∈ rows.take (8 * n), HasCode u2 row x) := by
  induction n generalizing p1 p2 rows with
  | zero => cases h; exact ⟨fun x hx => .inl hx, fun x hx => .inl hx⟩
  | succ n ih =>
    unfold scan at h
    split at h
    · cases h; exact ⟨fun x hx => .inl hx, fun x hx => .inl hx⟩
    rw [bindE_ok] at h
    obtain ⟨q1, h1, h⟩ := h
    rw [bindE_ok] at h
    obtain ⟨q2, h2, h⟩ := h
    have hsub : ∀ row ∈ rows.take 8, row ∈ rows.take (8 * (n + 1)) := fun row hr =>
      (List.take_subset_take_left rows (by omega)) hr
    have hdrop : ∀ row ∈ (rows.drop 8).take (8 * n), row ∈ rows.take (8 * (n + 1)) := by
      intro row hr
      have e : 8 * (n + 1) = 8 + 8 * n := by omega
      rw [e, List.take_add]
      exact List.mem_append_right _ hr
    have f1 : ∀ x, q1 = some x → p1 = some x ∨ ∃ row ∈ rows.take (8 * (n + 1)), HasCode u1 row x := by
      intro x hx
      rcases searchCode_some h1 hx with h | ⟨_, h⟩
      · exact .inl h
      · obtain ⟨row, hr, hc⟩ := (h x).2 rfl
        exact .inr ⟨row, hsub row hr, hc⟩
    have f2 : ∀ x, q2 = some x → p2 = some x ∨ ∃ row ∈ rows.take (8 * (n + 1)), HasCode u2 row x := by
      intro x hx
      rcases searchCode_some h2 hx with h | ⟨_, h⟩
      · exact .inl h
      · obtain ⟨row, hr, hc⟩ := (h x).2 rfl
        exact .inr ⟨row, hsub row hr, hc⟩
    split at h
    · cases h; exact ⟨f1, f2⟩
    · obtain ⟨i1, i2⟩ := ih h
      refine ⟨fun x hx => ?_, fun x hx => ?_⟩
      · rcases i1 x hx with h | ⟨row, hr, hc⟩
        · exact f1 x h
        · exact .inr ⟨row, hdrop row hr, hc⟩
      · rcases i2 x hx with h | ⟨row, hr, hc⟩
        · exact f2 x h
        · exact .inr ⟨row, hdrop row hr, hc⟩

theorem codePosition_only {uid : List Byte} {rows : List (List PyStr)} {r : Option Nat} {p : Nat}
    (h : codePosition uid rows = .ok r) (hrow : ∃ row ∈ rows, HasCode uid row p)
    (honly : ∀ row ∈ rows, ∀ q, HasCode uid row q → q = p) : r = some p := by
  rw [codePosition_ok h]
  intro q
  constructor
  · rintro ⟨row, hr, hc⟩; exact honly row hr q hc
  · rintro rfl; exact hrow

/-- A column that alone has codes is found. -/
theorem scan_only {u1 u2 : List Byte} {n : Nat} {p1 p2 : Option Nat} {rows : List (List PyStr)}
    {q : Option Nat × Option Nat} (h : scan u1 u2 n p1 p2 rows = .ok q) :
    (∀ p, (p1 = none ∨ p1 = some p) → (∃ row ∈ rows.take (8 * n), HasCode u1 row p) →
      (∀ row ∈ rows.take (8 * n), ∀ x, HasCode u1 row x → x = p) → q.1 = some p) ∧
    (∀ p, (p2 = none ∨ p2 = some p) → (∃ row ∈ rows.take (8 * n), HasCode u2 row p) →
      (∀ row ∈ rows.take (8 * n), ∀ x, HasCode u2 row x → x = p) → q.2 = some p) := by
  induction n generalizing p1 p2 rows with
  | zero => simp
  | succ n ih =>
    have e : rows.take (8 * (n + 1)) = rows.take 8 ++ (rows.drop 8).take (8 * n) := by
      rw [show 8 * (n + 1) = 8 + 8 * n by omega, List.take_add]
    unfold scan at h
    split at h
    · rename_i he
      have : rows = [] := by
        rw [List.isEmpty_iff, List.take_eq_nil_iff] at he
        rcases he with he | he
        · cases he
        · exact he
      subst this
      simp
    rw [bindE_ok] at h
    obtain ⟨q1, h1, h⟩ := h
    rw [bindE_ok] at h
    obtain ⟨q2, h2, h⟩ := h
    have step : ∀ {u : List Byte} {p0 q0 : Option Nat} {p : Nat}, searchCode u (rows.take 8) p0 = .ok q0 →
        (p0 = none ∨ p0 = some p) → (∀ row ∈ rows.take (8 * (n + 1)), ∀ x, HasCode u row x → x = p) →
        (q0 = none ∨ q0 = some p) ∧ ((∃ row ∈ rows.take 8, HasCode u row p) → q0 = some p) ∧
          (p0 = some p → q0 = some p) := by
      intro u p0 q0 p hs hp ho
      rcases hp with rfl | rfl
      · have ho' : ∀ row ∈ rows.take 8, ∀ x, HasCode u row x → x = p := fun row hr =>
          ho row (by rw [e]; exact List.mem_append_left _ hr)
        refine ⟨?_, fun hr => codePosition_only hs hr ho', fun h => nomatch h⟩
        cases q0 with
        | none => exact .inl rfl
        | some x =>
          obtain ⟨row, hr, hc⟩ := ((codePosition_ok hs x).1 rfl x).2 rfl
          exact .inr (by rw [ho' row hr x hc])
      · cases hs
        exact ⟨.inr rfl, fun _ => rfl, fun _ => rfl⟩
    have mono : ∀ {u : List Byte} {p : Nat}, (∀ row ∈ rows.take (8 * (n + 1)), ∀ x, HasCode u row x → x = p) →
        ∀ row ∈ (rows.drop 8).take (8 * n), ∀ x, HasCode u row x → x = p := by
      intro u p ho row hr
      exact ho row (by rw [e]; exact List.mem_append_right _ hr)
    split at h
    · rename_i hsome
      cases h
      rw [Bool.and_eq_true] at hsome
      refine ⟨fun p hp hr ho => ?_, fun p hp hr ho => ?_⟩
      · rcases (step h1 hp ho).1 with h | h
        · rw [h] at hsome; cases hsome.1
        · exact h
      · rcases (step h2 hp ho).1 with h | h
        · rw [h] at hsome; cases hsome.2
        · exact h
    · obtain ⟨i1, i2⟩ := ih h
      have keep := scan_keeps h
      refine ⟨fun p hp hr ho => ?_, fun p hp hr ho => ?_⟩
      · obtain ⟨s1, s2, _⟩ := step h1 hp ho
        rw [e] at hr
        obtain ⟨row, hr, hc⟩ := hr
        rcases List.mem_append.1 hr with hr | hr
        · exact keep.1 p (s2 ⟨row, hr, hc⟩)
        · exact i1 p s1 ⟨row, hr, hc⟩ (mono ho)
      · obtain ⟨s1, s2, _⟩ := step h2 hp ho
        rw [e] at hr
        obtain ⟨row, hr, hc⟩ := hr
        rcases List.mem_append.1 hr with hr | hr
        · exact keep.2 p (s2 ⟨row, hr, hc⟩)
        · exact i2 p s1 ⟨row, hr, hc⟩ (mono ho)
where
  scan_keeps {u1 u2 : List Byte} {n : Nat} {p1 p2 : Option Nat} {rows : List (List PyStr)}
      {q : Option Nat × Option Nat} (h : scan u1 u2 n p1 p2 rows = .ok q) :
      (∀ p, p1 = some p → q.1 = some p) ∧ (∀ p, p2 = some p → q.2 = some p) := by
    induction n generalizing p1 p2 rows with
    | zero => cases h; exact ⟨fun _ h => h, fun _ h => h⟩
    | succ n ih =>
      unfold scan at h
      split at h
      · cases h; exact ⟨fun _ h => h, fun _ h => h⟩
      rw [bindE_ok] at h
      obtain ⟨q1, h1, h⟩ := h
      rw [bindE_ok] at h
      obtain ⟨q2, h2, h⟩ := h
      have f1 : ∀ p, p1 = some p → q1 = some p := by rintro p rfl; cases h1; rfl
      have f2 : ∀ p, p2 = some p → q2 = some p := by rintro p rfl; cases h2; rfl
      split at h
      · cases h; exact ⟨f1, f2⟩
      · obtain ⟨i1, i2⟩ := ih h
        exact ⟨fun p hp => i1 p (f1 p hp), fun p hp => i2 p (f2 p hp)⟩

theorem cell_ok {row : List PyStr} {i : Nat} {c : PyStr} : cell row i = .ok c ↔ row[i]? = some c := by
  unfold cell
  cases row[i]? with
  | none => exact ⟨fun h => (nomatch h), fun h => (nomatch h)⟩
  | some x => simp

theorem indexId_ok {code : Option Nat} {uid : List Byte} {row : List PyStr} {id : Option Int} :
    indexId code uid row = .ok id ↔ IdIs code uid row id := by
  unfold indexId IdIs
  cases code with
  | none => simp [eq_comm]
  | some p =>
    simp only [bindE_ok, cell_ok]
    refine exists_congr fun c => and_congr_right fun _ => ?_
    by_cases hc : c = []
    · subst hc
      simp [eq_comm]
    · rw [if_neg (by simpa using hc)]
      simp only [hc, false_and, false_or, ne_eq, not_false_eq_true, true_and]
      rcases hi : toId c uid with e | i
      · simp only [reduceCtorEq, false_and, exists_false, iff_false]
        cases e <;> simp
      · simp [eq_comm]

theorem slice_getElem? {header : List PyStr} {p : Nat × Nat} {k : Nat} :
    (slice header p)[k]? = if p.1 + k < p.2 then header[p.1 + k]? else none := by
  unfold slice
  rw [List.getElem?_drop, List.getElem?_take]

theorem slice_nodup {header : List PyStr} {p : Nat × Nat} (h : (slice header p).Nodup) {i j : Nat} {c : PyStr}
    (hi : p.1 ≤ i) (hi' : i < p.2) (hj : p.1 ≤ j) (hj' : j < p.2) (h1 : header[i]? = some c)
    (h2 : header[j]? = some c) : i = j := by
  obtain ⟨a, rfl⟩ := Nat.exists_eq_add_of_le hi
  obtain ⟨b, rfl⟩ := Nat.exists_eq_add_of_le hj
  have e1 : (slice header p)[a]? = some c := by rw [slice_getElem?, if_pos hi', h1]
  have e2 : (slice header p)[b]? = some c := by rw [slice_getElem?, if_pos hj', h2]
  obtain ⟨ha, ea⟩ := List.getElem?_eq_some_iff.1 e1
  obtain ⟨hb, eb⟩ := List.getElem?_eq_some_iff.1 e2
  rw [(List.Nodup.getElem_inj_iff h).1 (ea.trans eb.symm)]

theorem location_ok {header cols : List PyStr} {p : Nat × Nat} {l : List (Option Nat)} {row labels : List PyStr}
    (h : labelPositions header cols p = .ok l) (hl : location l row = .ok labels) :
    (slice header p).Nodup ∧ List.Forall₂ (LabelIs header p row) cols labels := by
  unfold labelPositions at h
  split at h
  · rename_i hnd
    cases h
    refine ⟨hnd, ?_⟩
    unfold location at hl
    rw [mapM_forall₂, List.forall₂_map_left_iff] at hl
    refine hl.imp fun c x hx => ?_
    rcases hf : (slice header p).findIdx? fun y => y == c with _ | k
    · rw [hf] at hx
      cases hx
      refine .inr ⟨fun i h1 h2 h3 => ?_, rfl⟩
      rw [List.findIdx?_eq_none_iff] at hf
      obtain ⟨a, rfl⟩ := Nat.exists_eq_add_of_le h1
      have e1 : (slice header p)[a]? = some c := by rw [slice_getElem?, if_pos h2, h3]
      have := hf c (List.mem_of_getElem? e1)
      simp at this
    · rw [hf] at hx
      rw [List.findIdx?_eq_some_iff_getElem] at hf
      obtain ⟨hk, h1, _⟩ := hf
      have e1 : (slice header p)[k]? = some c := by
        rw [List.getElem?_eq_getElem hk]
        simpa using h1
      rw [slice_getElem?] at e1
      split at e1
      · rename_i hlt
        refine .inl ⟨p.1 + k, by omega, hlt, e1, ?_⟩
        have := cell_ok.1 hx
        rwa [Nat.add_comm]
      · cases e1
  · cases h

theorem labelPositions_nodup {header cols : List PyStr} {p : Nat × Nat} {l : List (Option Nat)}
    (h : labelPositions header cols p = .ok l) : (slice header p).Nodup := by
  unfold labelPositions at h
  split at h
  · assumption
  · cases h

theorem readRow_ok {u1 u2 : List Byte} {p : Positions} {l1 l2 : List (Option Nat)} {row : List PyStr} {x : Line} :
    readRow u1 u2 p l1 l2 row = .ok x ↔ indexId p.code1 u1 row = .ok x.id1 ∧ location l1 row = .ok x.labels1 ∧
      indexId p.code2 u2 row = .ok x.id2 ∧ location l2 row = .ok x.labels2 ∧ row[p.value]? = some x.value := by
  unfold readRow
  simp only [bindE_ok, cell_ok]
  constructor
  · rintro ⟨a, h1, b, h2, c, h3, d, h4, e, h5, h6⟩
    cases h6
    exact ⟨h1, h2, h3, h4, h5⟩
  · rintro ⟨h1, h2, h3, h4, h5⟩
    exact ⟨_, h1, _, h2, _, h3, _, h4, _, h5, rfl⟩

theorem columnPositions_ok {edge : PyStr → Option PyStr} {cols1 cols2 : List PyStr} {u1 u2 : List Byte} {link : PyStr}
    {t : Table} {p : Positions} (h : columnPositions edge cols1 cols2 u1 u2 link t = .ok p) :
    FirstLink edge link t.header p.value ∧ scan u1 u2 32 none none t.rows = .ok (p.code1, p.code2) ∧
    (p.code1 = none → cols1 = slice t.header p.part1) ∧ (p.code2 = none → cols2 = slice t.header p.part2) ∧
    (∀ a, p.code1 = some a → p.part1 = partOf p.value t.header.length a) ∧
    (∀ a, p.code2 = some a → p.part2 = partOf p.value t.header.length a) ∧
    (p.code1 ≠ some p.value → p.code2 ≠ some p.value →
      (p.part1 = (0, p.value) ∧ p.part2 = (p.value + 1, t.header.length)) ∨
      (p.part1 = (p.value + 1, t.header.length) ∧ p.part2 = (0, p.value))) := by
  unfold columnPositions at h
  split at h
  · cases h
  rename_i v hv
  rw [valuePosition_some] at hv
  rw [bindE_ok] at h
  obtain ⟨⟨q1, q2⟩, hs, h⟩ := h
  cases q1 with
  | some a =>
    cases q2 with
    | some b =>
      dsimp only at h
      split at h
      · cases h
      rename_i hlt
      cases h
      refine ⟨hv, hs, fun h => (nomatch h), fun h => (nomatch h), ?_, ?_, ?_⟩
      · intro x hx; cases hx; rfl
      · intro x hx; cases hx; rfl
      · intro h1 h2
        have h1 : a ≠ v := fun h => h1 (by rw [h])
        have h2 : b ≠ v := fun h => h2 (by rw [h])
        simp only [Bool.or_eq_true, decide_eq_true_eq, not_or, not_lt] at hlt
        unfold partOf leftPart rightPart
        dsimp only
        by_cases ha : a < v
        · have hb : ¬ b < v := by omega
          rw [if_pos ha, if_neg hb]
          exact .inl ⟨rfl, rfl⟩
        · have hb : b < v := by omega
          rw [if_neg ha, if_pos hb]
          exact .inr ⟨rfl, rfl⟩
    | none =>
      dsimp only at h
      split at h
      · rename_i hc
        cases h
        refine ⟨hv, hs, fun h => (nomatch h), fun _ => hc, ?_, fun _ h => (nomatch h), ?_⟩
        · intro x hx; cases hx; rfl
        · intro _ _
          unfold partOf otherPart leftPart rightPart
          dsimp only
          by_cases ha : a < v
          · rw [if_pos ha, if_pos ha]; exact .inl ⟨rfl, rfl⟩
          · rw [if_neg ha, if_neg ha]; exact .inr ⟨rfl, rfl⟩
      · cases h
  | none =>
    cases q2 with
    | some b =>
      dsimp only at h
      split at h
      · rename_i hc
        cases h
        refine ⟨hv, hs, fun _ => hc, fun h => (nomatch h), fun _ h => (nomatch h), ?_, ?_⟩
        · intro x hx; cases hx; rfl
        · intro _ _
          unfold partOf otherPart leftPart rightPart
          dsimp only
          by_cases ha : b < v
          · rw [if_pos ha, if_pos ha]; exact .inr ⟨rfl, rfl⟩
          · rw [if_neg ha, if_neg ha]; exact .inl ⟨rfl, rfl⟩
      · cases h
    | none =>
      dsimp only at h
      split at h
      · rename_i hc
        cases h
        exact ⟨hv, hs, fun _ => hc.1, fun _ => hc.2, fun _ h => (nomatch h), fun _ h => (nomatch h), fun _ _ => .inl ⟨rfl, rfl⟩⟩
      · cases h

end Toron.MappingCsv
