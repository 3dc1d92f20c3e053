/-
Lemmas about the shorthand for links.
-/
import Verif.Spec.Edge

namespace Toron.Edge

open Toron.Selectors (PyStr isSpace)

/-! ### What the parts match -/

theorem mem_greedy {p : Char → Bool} {s : PyStr} {r : PyStr × PyStr} :
    r ∈ greedy p s ↔ s = r.1 ++ r.2 ∧ ∀ c ∈ r.1, p c = true := by
  obtain ⟨a, b⟩ := r
  induction s generalizing a b with
  | nil =>
    simp only [greedy, List.mem_singleton, Prod.mk.injEq]
    constructor
    · rintro ⟨rfl, rfl⟩; simp
    · rintro ⟨h, _⟩; exact List.append_eq_nil_iff.1 h.symm
  | cons c t ih =>
    rw [greedy, List.mem_append, List.mem_singleton]
    constructor
    · rintro (h | h)
      · split at h
        · rename_i hp
          obtain ⟨⟨x, y⟩, hr, he⟩ := List.mem_map.1 h
          simp only [Prod.mk.injEq] at he
          obtain ⟨rfl, rfl⟩ := he
          obtain ⟨h1, h2⟩ := (ih x y).1 hr
          exact ⟨by rw [h1]; rfl, List.forall_mem_cons.2 ⟨hp, h2⟩⟩
        · cases h
      · cases h; simp
    · rintro ⟨h1, h2⟩
      cases a with
      | nil =>
        right
        simp only [List.nil_append] at h1
        rw [h1]
      | cons d a =>
        left
        simp only [List.cons_append, List.cons.injEq] at h1
        obtain ⟨rfl, h1⟩ := h1
        obtain ⟨hd, h2⟩ := List.forall_mem_cons.1 h2
        rw [if_pos hd]
        exact List.mem_map.2 ⟨(a, b), (ih a b).2 ⟨h1, h2⟩, rfl⟩

theorem mem_reluctant {p : Char → Bool} {s : PyStr} {r : PyStr × PyStr} :
    r ∈ reluctant p s ↔ s = r.1 ++ r.2 ∧ ∀ c ∈ r.1, p c = true := by
  rw [← mem_greedy]
  induction s generalizing r with
  | nil => rfl
  | cons c t ih =>
    rw [reluctant, greedy, List.mem_append, List.mem_singleton, List.mem_cons, or_comm]
    split
    · simp only [List.mem_map, ih]
    · rfl

theorem mem_plus {star : (Char → Bool) → PyStr → List (PyStr × PyStr)} {p : Char → Bool} {s : PyStr} {r : PyStr × PyStr}
    (hstar : ∀ s r, r ∈ star p s ↔ s = r.1 ++ r.2 ∧ ∀ c ∈ r.1, p c = true) :
    r ∈ plus star p s ↔ s = r.1 ++ r.2 ∧ r.1 ≠ [] ∧ ∀ c ∈ r.1, p c = true := by
  obtain ⟨a, b⟩ := r
  cases s with
  | nil =>
    simp only [plus, List.not_mem_nil, false_iff]
    rintro ⟨h, h', _⟩
    exact h' (List.append_eq_nil_iff.1 h.symm).1
  | cons c t =>
    rw [plus]
    constructor
    · intro h
      split at h
      · rename_i hp
        obtain ⟨⟨x, y⟩, hr, he⟩ := List.mem_map.1 h
        simp only [Prod.mk.injEq] at he
        obtain ⟨rfl, rfl⟩ := he
        obtain ⟨h1, h2⟩ := (hstar _ _).1 hr
        exact ⟨by rw [h1]; rfl, by simp, List.forall_mem_cons.2 ⟨hp, h2⟩⟩
      · cases h
    · rintro ⟨h1, h2, h3⟩
      cases a with
      | nil => exact absurd rfl h2
      | cons d a =>
        simp only [List.cons_append, List.cons.injEq] at h1
        obtain ⟨rfl, h1⟩ := h1
        obtain ⟨hd, h3⟩ := List.forall_mem_cons.1 h3
        rw [if_pos hd]
        exact List.mem_map.2 ⟨(a, b), (hstar _ _).2 ⟨h1, h3⟩, rfl⟩

theorem mem_lit {x s : PyStr} {r : PyStr × PyStr} : r ∈ lit x s ↔ r.1 = x ∧ s = x ++ r.2 := by
  obtain ⟨a, b⟩ := r
  unfold lit
  by_cases h : x.isPrefixOf s = true
  · rw [if_pos h]
    obtain ⟨t, rfl⟩ := List.isPrefixOf_iff_prefix.1 h
    simp only [List.mem_singleton, Prod.mk.injEq, List.drop_left, List.append_cancel_left_eq]
    exact ⟨fun ⟨h1, h2⟩ => ⟨h1, h2.symm⟩, fun ⟨h1, h2⟩ => ⟨h1, h2.symm⟩⟩
  · rw [if_neg h]
    simp only [List.not_mem_nil, false_iff]
    rintro ⟨_, rfl⟩
    exact h (List.isPrefixOf_iff_prefix.2 ⟨b, rfl⟩)

theorem lit_append (x t : PyStr) : lit x (x ++ t) = [(x, t)] := by
  unfold lit
  rw [if_pos (List.isPrefixOf_iff_prefix.2 ⟨t, rfl⟩), List.drop_left]

/-! ### The first way -/

theorem head_flatMap {α β : Type} {pre post : List α} {x : α} {k : α → List β} {v : β} (hpre : ∀ y ∈ pre, k y = [])
    (h : (k x).head? = some v) : ((pre ++ x :: post).flatMap k).head? = some v := by
  rw [List.flatMap_append, List.flatMap_eq_nil_iff.2 hpre, List.nil_append, List.flatMap_cons, List.head?_append, h]
  rfl

/-- A greedy part takes `m` if the rest fails after every longer match. -/
theorem greedy_first {β : Type} {p : Char → Bool} {m r : PyStr} {k : PyStr × PyStr → List β} {v : β}
    (hm : ∀ c ∈ m, p c = true)
    (hlong : ∀ q r', r = q ++ r' → q ≠ [] → (∀ c ∈ q, p c = true) → k (m ++ q, r') = [])
    (h : (k (m, r)).head? = some v) : ((greedy p (m ++ r)).flatMap k).head? = some v := by
  suffices hs : ∃ pre post, greedy p (m ++ r) = pre ++ (m, r) :: post ∧
      ∀ y ∈ pre, ∃ q, y.1 = m ++ q ∧ q ≠ [] ∧ r = q ++ y.2 ∧ ∀ c ∈ q, p c = true by
    obtain ⟨pre, post, he, hpre⟩ := hs
    rw [he]
    refine head_flatMap ?_ h
    rintro ⟨a, b⟩ hy
    obtain ⟨q, h1, h2, h3, h4⟩ := hpre _ hy
    dsimp only at h1 h3
    rw [h1]
    exact hlong q b h3 h2 h4
  clear hlong h
  induction m with
  | nil =>
    cases r with
    | nil => exact ⟨[], [], rfl, fun y hy => (nomatch hy)⟩
    | cons c t =>
      refine ⟨if p c then (greedy p t).map fun r => (c :: r.1, r.2) else [], [], rfl, ?_⟩
      intro y hy
      split at hy
      · rename_i hp
        obtain ⟨x, hx, rfl⟩ := List.mem_map.1 hy
        obtain ⟨h1, h2⟩ := mem_greedy.1 hx
        exact ⟨c :: x.1, rfl, by simp, by rw [h1]; rfl, List.forall_mem_cons.2 ⟨hp, h2⟩⟩
      · cases hy
  | cons c m ih =>
    obtain ⟨hc, hm⟩ := List.forall_mem_cons.1 hm
    obtain ⟨pre, post, he, hpre⟩ := ih hm
    refine ⟨pre.map fun r => (c :: r.1, r.2), (post.map fun r => (c :: r.1, r.2)) ++ [([], c :: (m ++ r))], ?_, ?_⟩
    · rw [List.cons_append, greedy, if_pos hc, he]
      simp
    · intro y hy
      obtain ⟨x, hx, rfl⟩ := List.mem_map.1 hy
      obtain ⟨q, h1, h2⟩ := hpre x hx
      exact ⟨q, by rw [h1]; rfl, h2⟩

/-- A greedy part takes all of `m` if it cannot match what comes next. -/
theorem greedy_all {β : Type} {p : Char → Bool} {m r : PyStr} {k : PyStr × PyStr → List β} {v : β}
    (hm : ∀ c ∈ m, p c = true) (hr : ∀ c, r.head? = some c → p c = false) (h : (k (m, r)).head? = some v) :
    ((greedy p (m ++ r)).flatMap k).head? = some v := by
  refine greedy_first hm (fun q r' hq hne hp => ?_) h
  cases q with
  | nil => exact absurd rfl hne
  | cons c q =>
    have := hr c (by rw [hq]; rfl)
    rw [hp c (by simp)] at this
    cases this

theorem plus_greedy_all {β : Type} {p : Char → Bool} {m r : PyStr} {k : PyStr × PyStr → List β} {v : β} (hne : m ≠ [])
    (hm : ∀ c ∈ m, p c = true) (hr : ∀ c, r.head? = some c → p c = false) (h : (k (m, r)).head? = some v) :
    ((plus greedy p (m ++ r)).flatMap k).head? = some v := by
  cases m with
  | nil => exact absurd rfl hne
  | cons c m =>
    obtain ⟨hc, hm⟩ := List.forall_mem_cons.1 hm
    rw [List.cons_append, plus, if_pos hc, List.flatMap_map]
    exact greedy_all (k := fun r => k (c :: r.1, r.2)) hm hr h

/-- A reluctant part takes `m` if the rest fails after every shorter match. -/
theorem reluctant_first {β : Type} {p : Char → Bool} {m r : PyStr} {k : PyStr × PyStr → List β} {v : β}
    (hm : ∀ c ∈ m, p c = true) (hshort : ∀ x q, m = x ++ q → q ≠ [] → k (x, q ++ r) = [])
    (h : (k (m, r)).head? = some v) : ((reluctant p (m ++ r)).flatMap k).head? = some v := by
  induction m generalizing k with
  | nil =>
    cases r with
    | nil => exact head_flatMap (pre := []) (fun y hy => (nomatch hy)) h
    | cons c t => exact head_flatMap (pre := []) (fun y hy => (nomatch hy)) h
  | cons c m ih =>
    obtain ⟨hc, hm⟩ := List.forall_mem_cons.1 hm
    have h0 : k ([], c :: (m ++ r)) = [] := hshort [] (c :: m) rfl (by simp)
    rw [List.cons_append, reluctant, if_pos hc, List.flatMap_cons, h0, List.nil_append, List.flatMap_map]
    exact ih (k := fun r => k (c :: r.1, r.2)) hm (fun x q hx hq => hshort (c :: x) q (by rw [hx]; rfl) hq) h

theorem plus_reluctant_first {β : Type} {p : Char → Bool} {m r : PyStr} {k : PyStr × PyStr → List β} {v : β}
    (hne : m ≠ []) (hm : ∀ c ∈ m, p c = true)
    (hshort : ∀ x q, m = x ++ q → x ≠ [] → q ≠ [] → k (x, q ++ r) = [])
    (h : (k (m, r)).head? = some v) : ((plus reluctant p (m ++ r)).flatMap k).head? = some v := by
  cases m with
  | nil => exact absurd rfl hne
  | cons c m =>
    obtain ⟨hc, hm⟩ := List.forall_mem_cons.1 hm
    rw [List.cons_append, plus, if_pos hc, List.flatMap_map]
    exact reluctant_first (k := fun r => k (c :: r.1, r.2)) hm
      (fun x q hx hq => hshort (c :: x) q (by rw [hx]; rfl) (by simp) hq) h

/-! ### All ways -/

theorem nameChar_iff (c : Char) : nameChar c = true ↔ c ∉ ['<', '>', ':', '"', '/', '\\', '|', '?', '*'] := by
  unfold nameChar
  rw [Bool.not_eq_true', ← Bool.not_eq_true, List.contains_iff_mem]

theorem nameOk_iff (t : PyStr) : NameOk t ↔ t ≠ [] ∧ ∀ c ∈ t, nameChar c = true := by
  unfold NameOk
  simp only [nameChar_iff]

theorem mem_name {s : PyStr} {r : PyStr × PyStr} : r ∈ plus reluctant nameChar s ↔ s = r.1 ++ r.2 ∧ NameOk r.1 := by
  rw [mem_plus (fun s r => mem_reluctant), nameOk_iff]

theorem mem_blanks {s : PyStr} {r : PyStr × PyStr} : r ∈ greedy isSpace s ↔ s = r.1 ++ r.2 ∧ Blank r.1 := mem_greedy

theorem mem_blanks1 {s : PyStr} {r : PyStr × PyStr} :
    r ∈ plus greedy isSpace s ↔ s = r.1 ++ r.2 ∧ r.1 ≠ [] ∧ Blank r.1 :=
  mem_plus (fun s r => mem_greedy)

theorem mem_selectorWays {s : PyStr} {r : PyStr × PyStr} : r ∈ selectorWays s ↔ s = r.1 ++ r.2 ∧ SelectorOk r.1 := by
  unfold selectorWays SelectorOk
  simp only [List.mem_flatMap, List.mem_map, mem_lit, mem_greedy]
  constructor
  · rintro ⟨a, ⟨_, h1⟩, b, ⟨h2, h3⟩, c, ⟨_, h4⟩, rfl⟩
    refine ⟨?_, b.1, rfl, fun h => ?_⟩
    · rw [h1, h2, h4]; simp
    · have := h3 _ h
      simp at this
  · rintro ⟨h1, body, h2, h3⟩
    refine ⟨(['['], body ++ ']' :: r.2), ⟨rfl, by rw [h1, h2]; simp⟩, (body, ']' :: r.2), ⟨rfl, fun c hc => ?_⟩,
      ([']'], r.2), ⟨rfl, rfl⟩, by rw [← h2]⟩
    simp only [bne_iff_ne]
    rintro rfl
    exact h3 hc

theorem mem_tailWays {s : PyStr} {r : Option PyStr × PyStr} :
    r ∈ tailWays s ↔ (∃ x sel, r.1 = some sel ∧ s = ':' :: x ++ sel ++ r.2 ∧ Blank x ∧ SelectorOk sel) ∨
      (r.1 = none ∧ ((∃ x, s = ':' :: x ++ r.2 ∧ Blank x) ∨ s = r.2)) := by
  obtain ⟨o, r⟩ := r
  unfold tailWays
  simp only [List.mem_append, List.mem_flatMap, List.mem_map, mem_lit, mem_blanks, mem_selectorWays, List.mem_singleton,
    Prod.mk.injEq]
  constructor
  · rintro (⟨a, ⟨_, h1⟩, b, ⟨h2, h3⟩, ⟨c, ⟨h4, h5⟩, h6, h7⟩ | ⟨h4, h5⟩⟩ | ⟨h1, h2⟩)
    · exact .inl ⟨b.1, c.1, h6.symm, by rw [h1, h2, h4, h7]; simp, h3, h5⟩
    · exact .inr ⟨h4, .inl ⟨b.1, by rw [h1, h2, h5]; simp, h3⟩⟩
    · exact .inr ⟨h1, .inr h2.symm⟩
  · rintro (⟨x, sel, h1, h2, h3, h4⟩ | ⟨h1, ⟨x, h2, h3⟩ | h2⟩)
    · exact .inl ⟨([':'], x ++ (sel ++ r)), ⟨rfl, by rw [h2]; simp⟩, (x, sel ++ r), ⟨rfl, h3⟩,
        .inl ⟨(sel, r), ⟨rfl, h4⟩, h1.symm, rfl⟩⟩
    · exact .inl ⟨([':'], x ++ r), ⟨rfl, by rw [h2]; rfl⟩, (x, r), ⟨rfl, h3⟩, .inr ⟨h1, rfl⟩⟩
    · exact .inr ⟨h1, h2.symm⟩

theorem blank_append {a b : PyStr} (ha : Blank a) (hb : Blank b) : Blank (a ++ b) := by
  intro c hc
  rcases List.mem_append.1 hc with h | h
  · exact ha c h
  · exact hb c h

theorem atEnd_blank {s : PyStr} (h : atEnd s = true) : Blank s := by
  unfold atEnd at h
  rw [Bool.or_eq_true, List.isEmpty_iff, beq_iff_eq] at h
  rcases h with rfl | rfl
  · intro c hc; cases hc
  · intro c hc
    rw [List.mem_singleton] at hc
    rw [hc]; decide

theorem mem_endWays {n f1 d s : PyStr} {e : Edge} :
    e ∈ endWays n f1 d s ↔ e.name = n ∧ e.file1 = f1 ∧ e.direction = d ∧ NameOk e.file2 ∧
      (∀ t, e.selector = some t → SelectorOk t) ∧
      ∃ f t, s = e.file2 ++ f ++ t ∧ Blank f ∧ Ending e.selector t := by
  unfold endWays
  simp only [List.mem_flatMap, mem_name, mem_blanks, mem_tailWays]
  constructor
  · rintro ⟨f2, ⟨h1, h2⟩, i, ⟨h3, h4⟩, sel, h5, j, ⟨h6, h7⟩, h8⟩
    split at h8
    · rename_i he
      rw [List.mem_singleton] at h8
      subst h8
      have hj : Blank sel.2 := by rw [h6]; exact blank_append h7 (atEnd_blank he)
      refine ⟨rfl, rfl, rfl, h2, ?_, i.1, i.2, by rw [h1, h3, List.append_assoc], h4, ?_⟩
      · intro t ht
        dsimp only at ht
        rcases h5 with ⟨x, y, h5, _, _, h9⟩ | ⟨h5, _⟩
        · rw [h5] at ht
          cases ht
          exact h9
        · rw [h5] at ht; cases ht
      · dsimp only
        rcases h5 with ⟨x, y, h5, h9, h10, _⟩ | ⟨h5, ⟨x, h9, h10⟩ | h9⟩
        · rw [h5]
          exact ⟨x, sel.2, h9, h10, hj⟩
        · rw [h5]
          exact .inr ⟨x ++ sel.2, h9, blank_append h10 hj⟩
        · rw [h5]
          exact .inl (by rw [h9]; exact hj)
    · cases h8
  · obtain ⟨en, e1, ed, e2, es⟩ := e
    dsimp only
    rintro ⟨rfl, rfl, rfl, h2, hs, f, t, h3, h4, h5⟩
    refine ⟨(e2, f ++ t), ⟨by rw [h3, List.append_assoc], h2⟩, (f, t), ⟨rfl, h4⟩, ?_⟩
    have key : ∀ y, Blank y → ∃ a : PyStr × PyStr, (y = a.1 ++ a.2 ∧ Blank a.1) ∧
        (⟨en, e1, ed, e2, es⟩ : Edge) ∈ if atEnd a.2 = true then [(⟨en, e1, ed, e2, es⟩ : Edge)] else [] :=
      fun y hy => ⟨(y, []), ⟨(List.append_nil y).symm, hy⟩, by simp [atEnd]⟩
    cases es with
    | none =>
      rcases h5 with h5 | ⟨x, h5, h6⟩
      · exact ⟨(none, t), .inr ⟨rfl, .inr rfl⟩, key t h5⟩
      · exact ⟨(none, []), .inr ⟨rfl, .inl ⟨x, by simpa using h5, h6⟩⟩, key [] (fun c hc => (nomatch hc))⟩
    | some sel =>
      obtain ⟨x, y, h5, h6, h7⟩ := h5
      exact ⟨(some sel, y), .inl ⟨x, sel, rfl, h5, h6, hs sel rfl⟩, key y h7⟩

theorem mem_fileWays {n s : PyStr} {e : Edge} :
    e ∈ fileWays n s ↔ e.name = n ∧ NameOk e.file1 ∧ e.direction ∈ directions ∧ NameOk e.file2 ∧
      (∀ t, e.selector = some t → SelectorOk t) ∧
      ∃ d d' f t, s = e.file1 ++ d ++ e.direction ++ d' ++ e.file2 ++ f ++ t ∧ Blank d ∧ d ≠ [] ∧ Blank d' ∧ d' ≠ [] ∧
        Blank f ∧ Ending e.selector t := by
  unfold fileWays
  simp only [List.mem_flatMap, mem_name, mem_blanks1, mem_endWays, mem_lit]
  constructor
  · rintro ⟨f1, ⟨h1, h2⟩, g, ⟨h3, h4, h5⟩, dir, ⟨dd, h6, h7, h8⟩, h, ⟨h9, h10, h11⟩, h12, h13, h14, h15, h16, f, t, h17,
      h18, h19⟩
    refine ⟨h12, by rw [h13]; exact h2, by rw [h14, h7]; exact h6, h15, h16, g.1, h.1, f, t, ?_, h5, h4, h11, h10, h18, h19⟩
    rw [h1, h3, h8, h9, h17, h13, h14, h7]
    simp
  · rintro ⟨h1, h2, h3, h4, h5, d, d', f, t, h6, h7, h8, h9, h10, h11, h12⟩
    exact ⟨(e.file1, d ++ (e.direction ++ (d' ++ (e.file2 ++ f ++ t)))), ⟨by rw [h6]; simp, h2⟩,
      (d, e.direction ++ (d' ++ (e.file2 ++ f ++ t))), ⟨rfl, h8, h7⟩,
      (e.direction, d' ++ (e.file2 ++ f ++ t)), ⟨e.direction, h3, rfl, rfl⟩,
      (d', e.file2 ++ f ++ t), ⟨rfl, h10, h9⟩, h1, rfl, rfl, h4, h5, f, t, rfl, h11, h12⟩

theorem mem_directions (d : PyStr) :
    d ∈ directions ↔ String.ofList d ∈ ["->", "-->", "<->", "<-->", "<-", "<--"] := by
  have h : ["->", "-->", "<->", "<-->", "<-", "<--"] = directions.map String.ofList := by decide +kernel
  rw [h, List.mem_map]
  constructor
  · exact fun hd => ⟨d, hd, rfl⟩
  · rintro ⟨x, hx, he⟩
    rw [← String.ofList_injective he]
    exact hx

/-- The ways of matching are the links for which the text is the shorthand. -/
theorem mem_ways {s : PyStr} {e : Edge} : e ∈ ways s ↔ EdgeOk e ∧ Written e s := by
  unfold ways Written
  simp only [List.mem_flatMap, mem_name, mem_blanks, mem_lit, mem_fileWays]
  constructor
  · rintro ⟨a, ⟨h1, h2⟩, n, ⟨h3, h4⟩, b, ⟨h5, h6⟩, c, ⟨_, h7⟩, d, ⟨h8, h9⟩, h10, h11, h12, h13, h14, g, h, f, t, h15, h16,
      h17, h18, h19, h20, h21⟩
    refine ⟨⟨by rw [h10]; exact h4, h11, h13, (mem_directions _).1 h12, h14⟩,
      a.1, b.1, d.1, g, h, f, t, ?_, h2, h6, h9, h16, h17, h18, h19, h20, h21⟩
    rw [h1, h3, h5, h7, h8, h15, h10]
    simp
  · rintro ⟨ho, a, b, c, d, d', f, t, h1, h2, h3, h4, h5, h6, h7, h8, h9, h10⟩
    exact ⟨(a, _), ⟨by rw [h1]; simp only [List.append_assoc]; rfl, h2⟩, (e.name, _), ⟨rfl, ho.name⟩, (b, _), ⟨rfl, h3⟩,
      ([':'], _), ⟨rfl, rfl⟩, (c, _), ⟨rfl, h4⟩, rfl, ho.file1, (mem_directions _).2 ho.direction, ho.file2, ho.selector,
      d, d', f, t, by simp only [List.append_assoc], h5, h6, h7, h8, h9, h10⟩

/-! ### The way that is taken -/

theorem head_flatMap_unique {α β : Type} [DecidableEq α] {l : List α} {x : α} {k : α → List β} {v : β} (hx : x ∈ l)
    (hne : ∀ y ∈ l, y ≠ x → k y = []) (h : (k x).head? = some v) : (l.flatMap k).head? = some v := by
  induction l with
  | nil => cases hx
  | cons y l ih =>
    rw [List.flatMap_cons]
    by_cases hy : y = x
    · rw [hy, List.head?_append, h]; rfl
    · rw [hne y List.mem_cons_self hy, List.nil_append]
      refine ih ?_ fun z hz => hne z (List.mem_cons_of_mem _ hz)
      rcases List.mem_cons.1 hx with h' | h'
      · exact absurd h'.symm hy
      · exact h'

theorem suffix_notBlank {m x q : PyStr} (hm : Trimmed m) (h : m = x ++ q) (hq : q ≠ []) : ∃ c ∈ q, isSpace c = false := by
  refine ⟨q.getLast hq, List.getLast_mem hq, hm.2 _ ?_⟩
  rw [h, List.getLast?_append, List.getLast?_eq_some_getLast hq]
  rfl

theorem trimmed_next {m r : PyStr} (hm : Trimmed m) (hne : m ≠ []) : ∀ c, (m ++ r).head? = some c → isSpace c = false := by
  intro c hc
  refine hm.1 c ?_
  cases m with
  | nil => exact absurd rfl hne
  | cons d m => exact hc

/-- What is left of a name is not taken for blanks and what has to follow the name. -/
theorem no_early {q R g tok rest : PyStr} (hq : ∃ c ∈ q, isSpace c = false) (hn : ∀ c ∈ q, nameChar c = true)
    (hg : Blank g) (htok : ∃ c ∈ tok, nameChar c = false)
    (hR : ∀ z w rest, tok = z ++ w → z ≠ [] → w ≠ [] → R ≠ w ++ rest) (h : q ++ R = g ++ (tok ++ rest)) : False := by
  obtain ⟨c, hc, hcs⟩ := hq
  obtain ⟨b, hb, hbn⟩ := htok
  rcases List.append_eq_append_iff.1 h with ⟨z, rfl, _⟩ | ⟨z, rfl, h2⟩
  · have := hg c (List.mem_append_left _ hc)
    rw [hcs] at this; cases this
  · rcases List.append_eq_append_iff.1 h2 with ⟨w, rfl, _⟩ | ⟨w, rfl, h3⟩
    · have := hn b (List.mem_append_right _ (List.mem_append_left _ hb))
      rw [hbn] at this; cases this
    · by_cases hz : z = []
      · subst hz
        rw [List.append_nil] at hc
        have := hg c hc
        rw [hcs] at this; cases this
      · by_cases hw : w = []
        · subst hw
          rw [List.append_nil] at hb
          have := hn b (List.mem_append_right _ hb)
          rw [hbn] at this; cases this
        · exact hR z w rest rfl hz hw h3

theorem colon_whole (R : PyStr) : ∀ z w rest : PyStr, [':'] = z ++ w → z ≠ [] → w ≠ [] → R ≠ w ++ rest := by
  intro z w rest h hz hw
  have := congrArg List.length h
  rw [List.length_append, List.length_singleton] at this
  have := List.length_pos_iff.2 hz
  have := List.length_pos_iff.2 hw
  omega

theorem direction_facts : ∀ d ∈ directions, (∃ c ∈ d, nameChar c = false) ∧ (∀ c ∈ d, isSpace c = false) ∧ d ≠ [] := by
  decide

theorem head_of_blank {d T w rest : PyStr} (hd : Blank d) (hne : d ≠ []) (hw : w ≠ []) (h : d ++ T = w ++ rest) :
    ∃ c ∈ w, isSpace c = true := by
  cases d with
  | nil => exact absurd rfl hne
  | cons a d =>
    cases w with
    | nil => exact absurd rfl hw
    | cons b w =>
      simp only [List.cons_append, List.cons.injEq] at h
      exact ⟨b, List.mem_cons_self, by rw [← h.1]; exact hd a List.mem_cons_self⟩

theorem direction_next {d T : PyStr} (hd : d ∈ directions) : ∀ c, (d ++ T).head? = some c → isSpace c = false := by
  obtain ⟨_, h2, h3⟩ := direction_facts d hd
  intro c hc
  cases d with
  | nil => exact absurd rfl h3
  | cons a d =>
    cases hc
    exact h2 _ List.mem_cons_self

/-- After an arrow there is a blank, so that no other arrow is taken. -/
theorem direction_unique {d d' b b' T T' : PyStr} (hd : d ∈ directions) (hd' : d' ∈ directions) (hb : Blank b) (hbn : b ≠ [])
    (hb' : Blank b') (hbn' : b' ≠ []) (h : d ++ (b ++ T) = d' ++ (b' ++ T')) : d' = d := by
  obtain ⟨_, h2, _⟩ := direction_facts d hd
  obtain ⟨_, h2', _⟩ := direction_facts d' hd'
  rcases List.append_eq_append_iff.1 h with ⟨w, rfl, h3⟩ | ⟨w, rfl, h3⟩
  · by_cases hw : w = []
    · rw [hw, List.append_nil]
    · obtain ⟨c, hc, hcs⟩ := head_of_blank hb hbn hw h3
      rw [h2' c (List.mem_append_right _ hc)] at hcs
      cases hcs
  · by_cases hw : w = []
    · rw [hw, List.append_nil]
    · obtain ⟨c, hc, hcs⟩ := head_of_blank hb' hbn' hw h3
      rw [h2 c (List.mem_append_right _ hc)] at hcs
      cases hcs

theorem blanks_last {β : Type} {y : PyStr} {k : β} (hy : Blank y) :
    ((greedy isSpace y).flatMap fun j => if atEnd j.2 then [k] else []).head? = some k := by
  have := greedy_all (p := isSpace) (m := y) (r := []) (k := fun j => if atEnd j.2 then [k] else []) (v := k) hy
    (fun c hc => (nomatch hc)) (by simp [atEnd])
  rwa [List.append_nil] at this

theorem isSpace_colon : isSpace ':' = false := by decide

theorem selectorWays_head {sel y : PyStr} (hs : SelectorOk sel) (hy : Blank y) :
    ∃ post, selectorWays (sel ++ y) = (sel, y) :: post := by
  have : (selectorWays (sel ++ y)).head? = some (sel, y) := by
    obtain ⟨body, rfl, hb⟩ := hs
    unfold selectorWays
    have e : '[' :: body ++ [']'] ++ y = ['['] ++ (body ++ ([']'] ++ y)) := by simp
    rw [e, lit_append, List.flatMap_singleton]
    refine greedy_first ?_ ?_ ?_
    · intro c hc
      rw [bne_iff_ne]
      rintro rfl
      exact hb hc
    · intro q r' hq hqn _
      rw [List.map_eq_nil_iff, List.eq_nil_iff_forall_not_mem]
      intro z hz
      have hz2 := (mem_lit.1 hz).2
      dsimp only at hz2
      cases q with
      | nil => exact hqn rfl
      | cons d q =>
        simp only [List.cons_append, List.nil_append, List.cons.injEq] at hq
        have : ']' ∈ y := by
          rw [hq.2, hz2]
          simp
        exact absurd (hy _ this) (by decide)
    · dsimp only
      rw [lit_append]
      simp
  cases h : selectorWays (sel ++ y) with
  | nil => rw [h] at this; cases this
  | cons z post =>
    rw [h] at this
    cases this
    exact ⟨post, rfl⟩

theorem selectorWays_nil : selectorWays [] = [] := rfl

theorem endWays_head {n f1 d f t : PyStr} {e : Edge} (hn : e.name = n) (h1 : e.file1 = f1) (hd : e.direction = d)
    (h2 : NameOk e.file2) (ht : Trimmed e.file2) (hs : ∀ t, e.selector = some t → SelectorOk t) (hf : Blank f)
    (hend : Ending e.selector t) : (endWays n f1 d (e.file2 ++ (f ++ t))).head? = some e := by
  obtain ⟨en, e1, ed, e2, es⟩ := e
  dsimp only at *
  subst hn h1 hd
  obtain ⟨h3, h4⟩ := (nameOk_iff _).1 h2
  unfold endWays
  refine plus_reluctant_first h3 h4 ?_ ?_
  · intro x q hx _ hq
    rw [List.eq_nil_iff_forall_not_mem]
    intro e' he'
    simp only [List.mem_flatMap, mem_blanks, mem_tailWays] at he'
    obtain ⟨i, ⟨h5, h6⟩, sel, h7, j, ⟨h8, h9⟩, h10⟩ := he'
    have hnb := suffix_notBlank ht hx hq
    have hqn : ∀ c ∈ q, nameChar c = true := fun c hc => h4 c (by rw [hx]; exact List.mem_append_right _ hc)
    have colon : ∀ rest, i.2 = ':' :: rest → False := fun rest hrest =>
      no_early hnb hqn h6 (tok := [':']) ⟨':', by simp, by decide⟩ (colon_whole _) (rest := rest)
        (by rw [h5, hrest]; rfl)
    rcases h7 with ⟨x', s', _, h7, _⟩ | ⟨_, ⟨x', h7, _⟩ | h7⟩
    · exact colon _ (by rw [h7]; rfl)
    · exact colon _ (by rw [h7]; rfl)
    · split at h10
      · rename_i he
        obtain ⟨c, hc, hcs⟩ := hnb
        have hbl : Blank (q ++ (f ++ t)) := by
          rw [h5, h7, h8]
          exact blank_append h6 (blank_append h9 (atEnd_blank he))
        rw [hbl c (List.mem_append_left _ hc)] at hcs
        cases hcs
      · cases h10
  · dsimp only
    cases es with
    | none =>
      rcases hend with hb | ⟨x, rfl, hb⟩
      · have := greedy_all (p := isSpace) (m := f ++ t) (r := []) (v := (⟨en, e1, ed, e2, none⟩ : Edge))
          (k := fun i => (tailWays i.2).flatMap fun sel => (greedy isSpace sel.2).flatMap fun j =>
            if atEnd j.2 then [⟨en, e1, ed, e2, sel.1⟩] else []) (blank_append hf hb) (fun c hc => (nomatch hc)) (by rfl)
        rwa [List.append_nil] at this
      · refine greedy_all hf (fun c hc => by cases hc; exact isSpace_colon) ?_
        dsimp only
        have ht : ∃ post, tailWays (':' :: x) = (none, []) :: post := by
          have : (tailWays (':' :: x)).head? = some (none, []) := by
            unfold tailWays
            have e : ':' :: x = [':'] ++ x := rfl
            rw [e, lit_append, List.flatMap_singleton, List.head?_append]
            have := greedy_all (p := isSpace) (m := x) (r := []) (v := ((none, []) : Option PyStr × PyStr))
              (k := fun b => (selectorWays b.2).map (fun r => (some r.1, r.2)) ++ [(none, b.2)]) hb
              (fun c hc => (nomatch hc)) (by rfl)
            rw [List.append_nil] at this
            rw [this]; rfl
          cases h : tailWays (':' :: x) with
          | nil => rw [h] at this; cases this
          | cons z post =>
            rw [h] at this
            cases this
            exact ⟨post, rfl⟩
        obtain ⟨post, ht⟩ := ht
        rw [ht]
        exact head_flatMap (pre := []) (fun y hy => (nomatch hy)) (blanks_last fun c hc => (nomatch hc))
    | some sel =>
      obtain ⟨x, y, rfl, hx, hy⟩ := hend
      refine greedy_all hf (fun c hc => by cases hc; exact isSpace_colon) ?_
      dsimp only
      obtain ⟨post', hsel⟩ := selectorWays_head (hs sel rfl) hy
      have ht : ∃ post, tailWays (':' :: x ++ sel ++ y) = (some sel, y) :: post := by
        have : (tailWays (':' :: x ++ sel ++ y)).head? = some (some sel, y) := by
          unfold tailWays
          have e : ':' :: x ++ sel ++ y = [':'] ++ (x ++ (sel ++ y)) := by simp
          rw [e, lit_append, List.flatMap_singleton, List.head?_append]
          have := greedy_all (p := isSpace) (m := x) (r := sel ++ y) (v := ((some sel, y) : Option PyStr × PyStr))
            (k := fun b => (selectorWays b.2).map (fun r => (some r.1, r.2)) ++ [(none, b.2)]) hx
            (fun c hc => by
              obtain ⟨body, hb, _⟩ := hs sel rfl
              rw [hb] at hc
              cases hc
              decide)
            (by dsimp only; rw [hsel]; rfl)
          rw [this]; rfl
        cases h : tailWays (':' :: x ++ sel ++ y) with
        | nil => rw [h] at this; cases this
        | cons z post =>
          rw [h] at this
          cases this
          exact ⟨post, rfl⟩
      obtain ⟨post, ht⟩ := ht
      rw [ht]
      exact head_flatMap (pre := []) (fun y hy => (nomatch hy)) (blanks_last hy)

theorem fileWays_head {n d d' f t : PyStr} {e : Edge} (ho : EdgeOk e) (ht1 : Trimmed e.file1) (ht2 : Trimmed e.file2)
    (hn : e.name = n) (hd : Blank d) (hdn : d ≠ []) (hd' : Blank d') (hdn' : d' ≠ []) (hf : Blank f)
    (hend : Ending e.selector t) :
    (fileWays n (e.file1 ++ (d ++ (e.direction ++ (d' ++ (e.file2 ++ (f ++ t))))))).head? = some e := by
  obtain ⟨h3, h4⟩ := (nameOk_iff _).1 ho.file1
  have hdir := (mem_directions _).2 ho.direction
  unfold fileWays
  refine plus_reluctant_first h3 h4 ?_ ?_
  · intro x q hx _ hq
    rw [List.eq_nil_iff_forall_not_mem]
    intro e' he'
    simp only [List.mem_flatMap, mem_blanks1, mem_lit] at he'
    obtain ⟨g, ⟨h5, _, h6⟩, dir, ⟨dd, h7, _, h8⟩, _⟩ := he'
    obtain ⟨hd1, hd2, _⟩ := direction_facts dd h7
    refine no_early (suffix_notBlank ht1 hx hq)
      (fun c hc => h4 c (by rw [hx]; exact List.mem_append_right _ hc)) h6 hd1 ?_ (by rw [h5, h8])
    intro z w rest hzw _ hw hR
    obtain ⟨c, hc, hcs⟩ := head_of_blank hd hdn hw hR
    rw [hd2 c (by rw [hzw]; exact List.mem_append_right _ hc)] at hcs
    cases hcs
  · refine plus_greedy_all hdn hd (direction_next hdir) ?_
    dsimp only
    refine head_flatMap_unique (x := (e.direction, d' ++ (e.file2 ++ (f ++ t))))
      (List.mem_flatMap.2 ⟨_, hdir, mem_lit.2 ⟨rfl, rfl⟩⟩) ?_ ?_
    · rintro ⟨d2, r2⟩ hy hne
      obtain ⟨dd, h7, h8⟩ := List.mem_flatMap.1 hy
      obtain ⟨h8, h9⟩ := mem_lit.1 h8
      dsimp only at h8 h9
      subst h8
      rw [List.eq_nil_iff_forall_not_mem]
      intro e' he'
      obtain ⟨h, hh, _⟩ := List.mem_flatMap.1 he'
      obtain ⟨h10, h11, h12⟩ := mem_blanks1.1 hh
      dsimp only at h10
      subst h10
      have := direction_unique hdir h7 hd' hdn' h12 h11 h9
      subst this
      rw [List.append_cancel_left_eq] at h9
      rw [h9] at hne
      exact hne rfl
    · dsimp only
      refine plus_greedy_all hdn' hd' (trimmed_next ht2 ho.file2.1) ?_
      exact endWays_head hn rfl rfl ho.file2 ht2 ho.selector hf hend

theorem ways_head {e : Edge} {s : PyStr} (ho : EdgeOk e) (ht : Trimmed e.name) (ht1 : Trimmed e.file1)
    (ht2 : Trimmed e.file2) (hw : Written e s) : (ways s).head? = some e := by
  obtain ⟨a, b, c, d, d', f, t, rfl, h2, h3, h4, h5, h6, h7, h8, h9, h10⟩ := hw
  obtain ⟨hne, hnc⟩ := (nameOk_iff _).1 ho.name
  have e0 : a ++ e.name ++ b ++ ':' :: c ++ e.file1 ++ d ++ e.direction ++ d' ++ e.file2 ++ f ++ t =
      a ++ (e.name ++ (b ++ ([':'] ++ (c ++ (e.file1 ++ (d ++ (e.direction ++ (d' ++ (e.file2 ++ (f ++ t)))))))))) := by
    simp
  rw [e0]
  unfold ways
  refine greedy_all h2 (trimmed_next ht hne) ?_
  dsimp only
  refine plus_reluctant_first hne hnc ?_ ?_
  · intro x q hx _ hq
    rw [List.eq_nil_iff_forall_not_mem]
    intro e' he'
    simp only [List.mem_flatMap, mem_blanks, mem_lit] at he'
    obtain ⟨b', ⟨h11, h12⟩, c', ⟨_, h13⟩, _⟩ := he'
    exact no_early (suffix_notBlank ht hx hq) (fun c hc => hnc c (by rw [hx]; exact List.mem_append_right _ hc)) h12
      ⟨':', by simp, by decide⟩ (colon_whole _) (by rw [h11, h13])
  · refine greedy_all h3 (fun c hc => by cases hc; exact isSpace_colon) ?_
    dsimp only
    rw [lit_append, List.flatMap_singleton]
    refine greedy_all h4 (trimmed_next ht1 ho.file1.1) ?_
    exact fileWays_head ho ht1 ht2 rfl h5 h6 h7 h8 h9 h10

end Toron.Edge
