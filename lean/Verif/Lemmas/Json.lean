/-
Writing JSON and reading it.
-/
import Verif.Spec.Json
import Verif.Lemmas.Py
import Verif.Lemmas.Store.SpellingOps
import Verif.Lemmas.Reader
import Mathlib.Tactic.IntervalCases
import Mathlib.Data.List.Nodup

namespace Toron.Json

/-! ### Characters -/

theorem hexValue_hexDigit {n : Nat} (h : n < 16) : hexValue (hexDigit n) = some n := by
  interval_cases n <;> rfl

theorem hexValue4_hex {n : Nat} (h : n < 0x10000) :
    hexValue4 (hexDigit (n / 4096 % 16)) (hexDigit (n / 256 % 16)) (hexDigit (n / 16 % 16)) (hexDigit (n % 16)) = some n := by
  unfold hexValue4
  rw [hexValue_hexDigit (Nat.mod_lt _ (by decide)), hexValue_hexDigit (Nat.mod_lt _ (by decide)),
    hexValue_hexDigit (Nat.mod_lt _ (by decide)), hexValue_hexDigit (Nat.mod_lt _ (by decide))]
  show some _ = some n
  congr 1
  omega

/-- The units in which a character is written. -/
def unitsOf (c : Nat) : List (Nat × Bool) :=
  if c = 34 ∨ c = 92 ∨ c = 10 ∨ c = 13 ∨ c = 9 ∨ c = 12 ∨ c = 8 ∨ (32 ≤ c ∧ c ≤ 126) then [(c, false)]
  else if c < 0x10000 then [(c, true)]
  else [(0xD800 + (c - 0x10000) / 1024 % 1024, true), (0xDC00 + (c - 0x10000) % 1024, true)]

theorem scanUnits_hex4 {n : Nat} (h : n < 0x10000) (rest : Text) :
    scanUnits (hex4 n ++ rest) = (scanUnits rest).map fun x => ((n, true) :: x.1, x.2) := by
  show scanUnits (92 :: 117 :: _ :: _ :: _ :: _ :: rest) = _
  rw [scanUnits, hexValue4_hex h]
  cases scanUnits rest with
  | none => rfl
  | some x => rfl

theorem scanUnits_esc {c e : Nat} (he : unescape e = some c) (rest : Text) :
    scanUnits (92 :: e :: rest) = (scanUnits rest).map fun x => ((c, false) :: x.1, x.2) := by
  have hne : e ≠ 117 := by
    rintro rfl
    cases he
  rw [scanUnits, he]
  · cases scanUnits rest with
    | none => rfl
    | some x => rfl
  · rintro a b c d r h
    exact fun _ => hne h

theorem scanUnits_plain {c : Nat} (h1 : 32 ≤ c) (h2 : c ≠ 34) (h3 : c ≠ 92) (rest : Text) :
    scanUnits (c :: rest) = (scanUnits rest).map fun x => ((c, false) :: x.1, x.2) := by
  rw [scanUnits]
  · rw [if_neg (by omega)]
    cases scanUnits rest with
    | none => rfl
    | some x => rfl
  · exact h2
  · rintro a b c d r h
    exact fun _ => h3 h
  · rintro a r h
    exact fun _ => h3 h

theorem scanUnits_escape {c : Nat} (hc : c < 0x110000) (rest : Text) :
    scanUnits (escape c ++ rest) = (scanUnits rest).map fun x => (unitsOf c ++ x.1, x.2) := by
  unfold escape unitsOf
  by_cases h1 : c = 34
  · subst h1; exact scanUnits_esc rfl rest
  by_cases h2 : c = 92
  · subst h2; exact scanUnits_esc rfl rest
  by_cases h3 : c = 10
  · subst h3; exact scanUnits_esc rfl rest
  by_cases h4 : c = 13
  · subst h4; exact scanUnits_esc rfl rest
  by_cases h5 : c = 9
  · subst h5; exact scanUnits_esc rfl rest
  by_cases h6 : c = 12
  · subst h6; exact scanUnits_esc rfl rest
  by_cases h7 : c = 8
  · subst h7; exact scanUnits_esc rfl rest
  rw [if_neg h1, if_neg h2, if_neg h3, if_neg h4, if_neg h5, if_neg h6, if_neg h7]
  by_cases h8 : 32 ≤ c ∧ c ≤ 126
  · rw [if_pos h8, if_pos (by tauto)]
    exact scanUnits_plain h8.1 h1 h2 rest
  have h0 : ¬ (c = 34 ∨ c = 92 ∨ c = 10 ∨ c = 13 ∨ c = 9 ∨ c = 12 ∨ c = 8 ∨ (32 ≤ c ∧ c ≤ 126)) := by tauto
  rw [if_neg h8, if_neg h0]
  by_cases h9 : c < 0x10000
  · rw [if_pos h9, if_pos h9]
    exact scanUnits_hex4 h9 rest
  rw [if_neg h9, if_neg h9, List.append_assoc, scanUnits_hex4 (by omega), scanUnits_hex4 (by omega), Option.map_map]
  rfl

theorem scanUnits_quoted : ∀ (s : Text), (∀ c ∈ s, c < 0x110000) → ∀ rest,
    scanUnits (s.flatMap escape ++ 34 :: rest) = some (s.flatMap unitsOf, rest)
  | [], _, rest => by
    show scanUnits (34 :: rest) = _
    rw [scanUnits]
    rfl
  | c :: s, h, rest => by
    rw [List.flatMap_cons, List.append_assoc, scanUnits_escape (h c (by simp)),
      scanUnits_quoted s (fun x hx => h x (by simp [hx])) rest]
    rfl

/-! ### Surrogates -/

theorem isHigh_iff {n : Nat} : isHigh n = true ↔ 0xD800 ≤ n ∧ n < 0xDC00 := by
  unfold isHigh
  rw [Bool.and_eq_true, decide_eq_true_eq, decide_eq_true_eq]
  omega

theorem isLow_iff {n : Nat} : isLow n = true ↔ 0xDC00 ≤ n ∧ n < 0xE000 := by
  unfold isLow
  rw [Bool.and_eq_true, decide_eq_true_eq, decide_eq_true_eq]
  omega

theorem joinUnits_false (c : Nat) (l : List (Nat × Bool)) : joinUnits ((c, false) :: l) = c :: joinUnits l := by
  rw [joinUnits]
  simp

theorem joinUnits_pair {h l : Nat} (hh : isHigh h = true) (hl : isLow l = true) (rest : List (Nat × Bool)) :
    joinUnits ((h, true) :: (l, true) :: rest) = joinPair h l :: joinUnits rest := by
  rw [joinUnits, if_pos (by simp [hh, hl])]

theorem joinUnits_true {c : Nat} {l : List (Nat × Bool)}
    (h : ∀ x r, l = (x, true) :: r → (isHigh c && isLow x) = false) : joinUnits ((c, true) :: l) = c :: joinUnits l := by
  match l with
  | [] => simp [joinUnits]
  | (x, true) :: r => rw [joinUnits, if_neg (by simp [h x r rfl])]
  | (x, false) :: r =>
    rw [joinUnits]
    simp

theorem unitsOf_first (c : Nat) {x : Nat} {r l : List (Nat × Bool)} (h : unitsOf c ++ l = (x, true) :: r) :
    x = c ∨ isHigh x = true := by
  unfold unitsOf at h
  split at h
  · simp at h
  · split at h
    · simp at h
      exact .inl h.1.symm
    · simp at h
      refine .inr ?_
      rw [← h.1, isHigh_iff]
      omega

theorem joinUnits_units : ∀ (s : Text), Plain s → joinUnits (s.flatMap unitsOf) = s
  | [], _ => rfl
  | c :: s, h => by
    have hc := h.1 c (by simp)
    have ih := joinUnits_units s ⟨fun x hx => h.1 x (by simp [hx]), fun a x y b e => h.2 (c :: a) x y b (by rw [e]; rfl)⟩
    rw [List.flatMap_cons]
    unfold unitsOf
    by_cases h1 : c = 34 ∨ c = 92 ∨ c = 10 ∨ c = 13 ∨ c = 9 ∨ c = 12 ∨ c = 8 ∨ (32 ≤ c ∧ c ≤ 126)
    · rw [if_pos h1]
      show joinUnits ((c, false) :: _) = _
      rw [joinUnits_false]
      congr 1
    rw [if_neg h1]
    by_cases h2 : c < 0x10000
    · rw [if_pos h2]
      show joinUnits ((c, true) :: s.flatMap unitsOf) = _
      rw [joinUnits_true, ih]
      intro x r e
      match s with
      | [] => cases e
      | d :: s' =>
        rw [List.flatMap_cons] at e
        rcases unitsOf_first d e with rfl | hx
        · have := h.2 [] c x s' rfl
          rw [Bool.eq_false_iff, ne_eq, Bool.and_eq_true, isHigh_iff, isLow_iff]
          exact this
        · rw [isHigh_iff] at hx
          rw [Bool.eq_false_iff, ne_eq, Bool.and_eq_true, isHigh_iff, isLow_iff]
          omega
    · rw [if_neg h2]
      show joinUnits ((_, true) :: (_, true) :: s.flatMap unitsOf) = _
      rw [joinUnits_pair (by rw [isHigh_iff]; omega) (by rw [isLow_iff]; omega), ih]
      have hj : joinPair (0xD800 + (c - 0x10000) / 1024 % 1024) (0xDC00 + (c - 0x10000) % 1024) = c := by
        unfold joinPair
        omega
      rw [hj]

theorem scanString_quoted {s : Text} (h : Plain s) (rest : Text) :
    scanString (s.flatMap escape ++ 34 :: rest) = some (s, rest) := by
  unfold scanString
  rw [scanUnits_quoted s h.1]
  dsimp only
  rw [joinUnits_units s h]

/-! ### Numbers -/

theorem digitsAux_digit : ∀ fuel n, ∀ c ∈ digitsAux fuel n, isDigit c = true
  | 0, _, c, h => by cases h
  | fuel + 1, n, c, h => by
    rw [digitsAux] at h
    split at h
    · simp at h
      unfold isDigit
      simp
      omega
    · rw [List.mem_append] at h
      rcases h with h | h
      · exact digitsAux_digit fuel _ c h
      · simp at h
        unfold isDigit
        simp
        omega

theorem digitsAux_value : ∀ fuel n, n < fuel → digitsValue (digitsAux fuel n) = n
  | fuel + 1, n, h => by
    rw [digitsAux]
    split
    · unfold digitsValue
      simp
    · have ih := digitsAux_value fuel (n / 10) (by omega)
      unfold digitsValue at ih ⊢
      rw [List.foldl_append, ih]
      simp
      omega

theorem digitsAux_head : ∀ fuel n, n < fuel → ∃ c l, digitsAux fuel n = c :: l ∧ (c = 48 → n = 0 ∧ l = [])
  | fuel + 1, n, h => by
    rw [digitsAux]
    split
    · exact ⟨_, _, rfl, fun h => ⟨by omega, rfl⟩⟩
    · obtain ⟨c, l, e, h'⟩ := digitsAux_head fuel (n / 10) (by omega)
      rw [e]
      refine ⟨c, l ++ [48 + n % 10], rfl, fun hc => ?_⟩
      have := (h' hc).1
      omega

/-- What may follow a value. -/
def Ends (rest : Text) : Prop := rest = [] ∨ ∃ c r, rest = c :: r ∧ (c = 44 ∨ c = 93 ∨ c = 125)

theorem takeWhile_digits {w rest : Text} (hw : ∀ c ∈ w, isDigit c = true) (hr : Ends rest) :
    (w ++ rest).takeWhile isDigit = w ∧ (w ++ rest).dropWhile isDigit = rest := by
  have h0 : rest.takeWhile isDigit = [] ∧ rest.dropWhile isDigit = rest := by
    rcases hr with rfl | ⟨c, r, rfl, h⟩
    · exact ⟨rfl, rfl⟩
    · have : isDigit c = false := by rcases h with rfl | rfl | rfl <;> rfl
      rw [List.takeWhile_cons, List.dropWhile_cons, this]
      exact ⟨rfl, rfl⟩
  rw [List.takeWhile_append_of_pos hw, List.dropWhile_append_of_pos hw, h0.1, h0.2, List.append_nil]
  exact ⟨rfl, rfl⟩

theorem scanWhole_digits (n : Nat) {rest : Text} (hr : Ends rest) : scanWhole (digits n ++ rest) = some (digits n, rest) := by
  obtain ⟨c, l, e, h⟩ := digitsAux_head (n + 1) n (by omega)
  have hd : ∀ x ∈ digits n, isDigit x = true := digitsAux_digit _ _
  obtain ⟨ht, hdr⟩ := takeWhile_digits hd hr
  unfold digits at *
  rw [e] at hd ht hdr ⊢
  by_cases hc : c = 48
  · obtain ⟨-, rfl⟩ := h hc
    subst hc
    rfl
  · rw [List.cons_append] at ht hdr ⊢
    unfold scanWhole
    split
    · rename_i heq
      exact absurd (List.cons.inj heq).1 hc
    · rename_i heq
      obtain ⟨rfl, -⟩ := List.cons.inj heq
      rw [if_pos (hd _ (by simp)), ht, hdr]
    · rename_i heq
      cases heq

theorem scanFraction_ends {rest : Text} (hr : Ends rest) : scanFraction rest = ([], rest) := by
  rcases hr with rfl | ⟨c, r, rfl, h⟩
  · rfl
  · rcases h with rfl | rfl | rfl <;> rfl

theorem scanExponent_ends {rest : Text} (hr : Ends rest) : scanExponent rest = ([], rest) := by
  rcases hr with rfl | ⟨c, r, rfl, h⟩
  · rfl
  · rcases h with rfl | rfl | rfl <;> rfl

theorem digits_head (n : Nat) : ∃ c l, digits n = c :: l ∧ isDigit c = true := by
  obtain ⟨c, l, e, -⟩ := digitsAux_head (n + 1) n (by omega)
  exact ⟨c, l, e, digitsAux_digit (n + 1) n c (by rw [e]; simp)⟩

theorem scanNumber_int (i : Int) {rest : Text} (hr : Ends rest) : scanNumber (intText i ++ rest) = some (.int i, rest) := by
  have hv : ∀ n, digitsValue (digits n) = n := fun n => digitsAux_value _ _ (by omega)
  match i with
  | .ofNat n =>
    have hs : scanSign false (intText (Int.ofNat n) ++ rest) = ([], digits n ++ rest) := by
      show scanSign false (digits n ++ rest) = _
      obtain ⟨c, l, e, hc⟩ := digits_head n
      rw [e, List.cons_append, scanSign, if_neg]
      rintro (rfl | ⟨h, -⟩)
      · cases hc
      · cases h
    unfold scanNumber
    rw [hs]
    dsimp only
    rw [scanWhole_digits n hr]
    dsimp only
    rw [scanFraction_ends hr, scanExponent_ends hr, hv]
    rfl
  | .negSucc n =>
    have hs : scanSign false (intText (Int.negSucc n) ++ rest) = ([45], digits (n + 1) ++ rest) := rfl
    unfold scanNumber
    rw [hs]
    dsimp only
    rw [scanWhole_digits (n + 1) hr]
    dsimp only
    rw [scanFraction_ends hr, scanExponent_ends hr, hv]
    rfl

/-! ### Words and blanks -/

theorem scanWord_digit {c : Nat} {s : Text} (h : c ≠ 110 ∧ c ≠ 116 ∧ c ≠ 102 ∧ c ≠ 78 ∧ c ≠ 73)
    (h' : c = 45 → ∀ r, s ≠ 73 :: r) : scanWord (c :: s) = none := by
  unfold scanWord
  dsimp only
  rw [Option.map_eq_none_iff, List.find?_eq_none]
  intro w hw hp
  rw [List.isPrefixOf_iff_prefix] at hp
  obtain ⟨r, hr⟩ := hp
  simp only [List.mem_cons, List.not_mem_nil, or_false] at hw
  rcases hw with rfl | rfl | rfl | rfl | rfl | rfl
  · exact h.1 (List.cons.inj hr).1.symm
  · exact h.2.1 (List.cons.inj hr).1.symm
  · exact h.2.2.1 (List.cons.inj hr).1.symm
  · exact h.2.2.2.1 (List.cons.inj hr).1.symm
  · exact h.2.2.2.2 (List.cons.inj hr).1.symm
  · exact h' (List.cons.inj hr).1.symm _ (List.cons.inj hr).2.symm

/-- A character that starts no blank and closes nothing. -/
def Starts (c : Nat) : Prop := c ≠ 32 ∧ c ≠ 9 ∧ c ≠ 10 ∧ c ≠ 13 ∧ c ≠ 93 ∧ c ≠ 125

theorem skip_of {c : Nat} (h : c ≠ 32 ∧ c ≠ 9 ∧ c ≠ 10 ∧ c ≠ 13) (s : Text) : skip (c :: s) = c :: s := by
  unfold skip
  rw [List.dropWhile_cons, if_neg]
  simp [h]

theorem skip_starts {c : Nat} (h : Starts c) (s : Text) : skip (c :: s) = c :: s := skip_of ⟨h.1, h.2.1, h.2.2.1, h.2.2.2.1⟩ s

theorem skip_blank (s : Text) : skip (32 :: s) = skip s := rfl

theorem isDigit_starts {c : Nat} (h : isDigit c = true) : Starts c := by
  unfold isDigit at h
  rw [Bool.and_eq_true, decide_eq_true_eq, decide_eq_true_eq] at h
  unfold Starts
  omega

theorem dumps_starts (v : Val) (h : v.Ok) : ∃ c s, dumps v = c :: s ∧ Starts c := by
  cases v with
  | null => exact ⟨_, _, rfl, by unfold Starts; decide⟩
  | bool b => cases b <;> exact ⟨_, _, rfl, by unfold Starts; decide⟩
  | float w => exact absurd h (by unfold Val.Ok; exact id)
  | str s => exact ⟨34, _, by rw [dumps]; rfl, by unfold Starts; decide⟩
  | arr l => exact ⟨91, _, by rw [dumps], by unfold Starts; decide⟩
  | obj l => exact ⟨123, _, by rw [dumps], by unfold Starts; decide⟩
  | int i =>
    rw [dumps]
    cases i with
    | ofNat n =>
      obtain ⟨c, l, e, hc⟩ := digits_head n
      exact ⟨c, l, e, isDigit_starts hc⟩
    | negSucc n => exact ⟨45, _, rfl, by unfold Starts; decide⟩

theorem scanVal_int {n : Nat} (hn : 0 < n) (i : Int) {rest : Text} (hr : Ends rest) :
    scanVal n (intText i ++ rest) = some (.int i, rest) := by
  have hnum := scanNumber_int i hr
  obtain ⟨m, rfl⟩ : ∃ m, n = m + 1 := ⟨n - 1, by omega⟩
  have key : ∀ {c : Nat} {s : Text}, intText i ++ rest = c :: s → c ≠ 34 → c ≠ 123 → c ≠ 91 → scanWord (c :: s) = none →
      scanVal (m + 1) (intText i ++ rest) = some (.int i, rest) := by
    intro c s e h1 h2 h3 hw
    rw [e] at hnum ⊢
    rw [scanVal, if_neg h1, if_neg h2, if_neg h3, hw]
    exact hnum
  cases i with
  | ofNat k =>
    obtain ⟨c, l, e, hc⟩ := digits_head k
    have e' : intText (Int.ofNat k) ++ rest = c :: (l ++ rest) := by
      show digits k ++ rest = _
      rw [e]
      rfl
    unfold isDigit at hc
    rw [Bool.and_eq_true, decide_eq_true_eq, decide_eq_true_eq] at hc
    exact key e' (by omega) (by omega) (by omega) (scanWord_digit (by omega) fun h => by omega)
  | negSucc k =>
    obtain ⟨c, l, e, hc⟩ := digits_head (k + 1)
    have e' : intText (Int.negSucc k) ++ rest = 45 :: (c :: (l ++ rest)) := by
      show 45 :: digits (k + 1) ++ rest = _
      rw [e]
      rfl
    unfold isDigit at hc
    rw [Bool.and_eq_true, decide_eq_true_eq, decide_eq_true_eq] at hc
    refine key e' (by omega) (by omega) (by omega) (scanWord_digit (by omega) fun _ r h => ?_)
    have := (List.cons.inj h).1
    omega

theorem dictSet_new {d : List (Text × Val)} {k : Text} (h : k ∉ d.map (·.1)) (v : Val) : dictSet d k v = d ++ [(k, v)] := by
  unfold dictSet
  rw [if_neg]
  rw [List.any_eq_true]
  rintro ⟨x, hx, he⟩
  exact h (List.mem_map.2 ⟨x, hx, by simpa using he⟩)

theorem dictOf_nodup {l : List (Text × Val)} (h : (l.map (·.1)).Nodup) : dictOf l = l := by
  have key : ∀ (l d : List (Text × Val)), ((d ++ l).map (·.1)).Nodup → l.foldl (fun d kv => dictSet d kv.1 kv.2) d = d ++ l := by
    intro l
    induction l with
    | nil => intro d _; simp
    | cons kv l ih =>
      intro d hd
      rw [List.foldl_cons, dictSet_new, ih]
      · simp
      · simpa using hd
      · rw [List.map_append, List.map_cons, List.nodup_append'] at hd
        exact fun hk => hd.2.2 hk (by simp)
  exact key l [] h

/-! ### Values -/

theorem listRest_ends (l : List Val) (rest : Text) : ∃ c r, dumpsListRest l ++ rest = c :: r ∧ (c = 44 ∨ c = 93) := by
  cases l with
  | nil => exact ⟨93, rest, by rw [dumpsListRest]; rfl, .inr rfl⟩
  | cons v l => exact ⟨44, _, by rw [dumpsListRest]; rfl, .inl rfl⟩

theorem pairsRest_ends (l : List (Text × Val)) (rest : Text) :
    ∃ c r, dumpsPairsRest l ++ rest = c :: r ∧ (c = 44 ∨ c = 125) := by
  cases l with
  | nil => exact ⟨125, rest, by rw [dumpsPairsRest]; rfl, .inr rfl⟩
  | cons kv l => exact ⟨44, _, by rw [dumpsPairsRest]; rfl, .inl rfl⟩

theorem scanPairs_head {k : Text} {v : Val} {m : Nat} {tail : Text} (hk : Plain k) (hv : v.Ok)
    (hval : scanVal m (dumps v ++ tail) = some (v, tail)) :
    scanPairs (m + 1) (quoted k ++ 58 :: 32 :: (dumps v ++ tail)) =
      match skip tail with
      | 125 :: r => some ([(k, v)], r)
      | 44 :: r => (scanPairs m (skip r)).map fun x => ((k, v) :: x.1, x.2)
      | _ => none := by
  have e1 : quoted k ++ 58 :: 32 :: (dumps v ++ tail) =
      34 :: (k.flatMap escape ++ 34 :: 58 :: 32 :: (dumps v ++ tail)) := by
    unfold quoted
    simp
  obtain ⟨c', s', e', hc'⟩ := dumps_starts v hv
  have e2 : skip (32 :: (dumps v ++ tail)) = dumps v ++ tail := by
    rw [skip_blank, e', List.cons_append, skip_starts hc']
  rw [e1, scanPairs]
  rw [scanString_quoted hk]
  dsimp only
  rw [skip_of (by decide)]
  show (match scanVal m (skip (32 :: (dumps v ++ tail))) with
    | none => none
    | some (v, s3) =>
      match skip s3 with
      | 125 :: r => some ([(k, v)], r)
      | 44 :: r => (scanPairs m (skip r)).map fun x : List (Text × Val) × Text => ((k, v) :: x.1, x.2)
      | _ => none) = _
  rw [e2, hval]

mutual
theorem scanVal_dumps : (v : Val) → v.Ok → ∀ (n : Nat) (rest : Text), 2 * (dumps v).length ≤ n → Ends rest →
    scanVal n (dumps v ++ rest) = some (v, rest)
  | .null, _, n, rest, hn, _ => by
    obtain ⟨m, rfl⟩ : ∃ m, n = m + 1 := ⟨n - 1, by simp [dumps] at hn; omega⟩
    rw [dumps]
    rfl
  | .bool true, _, n, rest, hn, _ => by
    obtain ⟨m, rfl⟩ : ∃ m, n = m + 1 := ⟨n - 1, by simp [dumps] at hn; omega⟩
    rw [dumps]
    rfl
  | .bool false, _, n, rest, hn, _ => by
    obtain ⟨m, rfl⟩ : ∃ m, n = m + 1 := ⟨n - 1, by simp [dumps] at hn; omega⟩
    rw [dumps]
    rfl
  | .int i, h, n, rest, hn, hr => by
    have hpos : 0 < n := by
      obtain ⟨c, s, e, -⟩ := dumps_starts (.int i) h
      rw [e] at hn
      simp at hn
      omega
    rw [dumps]
    exact scanVal_int hpos i hr
  | .float _, h, _, _, _, _ => absurd h (by unfold Val.Ok; exact id)
  | .str s, h, n, rest, hn, _ => by
    obtain ⟨m, rfl⟩ : ∃ m, n = m + 1 := ⟨n - 1, by simp [dumps, quoted] at hn; omega⟩
    rw [dumps]
    have e : quoted s ++ rest = 34 :: (s.flatMap escape ++ 34 :: rest) := by unfold quoted; simp
    rw [e, scanVal, if_pos rfl, scanString_quoted (by unfold Val.Ok at h; exact h)]
    rfl
  | .arr l, h, n, rest, hn, _ => by
    rw [dumps] at hn ⊢
    obtain ⟨m, rfl⟩ : ∃ m, n = m + 1 := ⟨n - 1, by simp at hn; omega⟩
    rw [List.cons_append, scanVal, if_neg (by decide), if_neg (by decide), if_pos rfl]
    cases l with
    | nil =>
      rw [dumpsList]
      rfl
    | cons v l =>
      unfold Val.Ok OkList at h
      rw [dumpsList] at hn ⊢
      have := scanItems_dumps v l h.1 h.2 m rest (by simp at hn ⊢; omega)
      obtain ⟨c, s, e, hc⟩ := dumps_starts v h.1
      rw [List.append_assoc, e, List.cons_append] at this
      rw [List.append_assoc, e, List.cons_append, skip_starts hc]
      split
      · rename_i heq
        exact absurd (List.cons.inj heq).1 hc.2.2.2.2.1
      · rw [this]
        rfl
  | .obj [], h, n, rest, hn, _ => by
    rw [dumps] at hn ⊢
    obtain ⟨m, rfl⟩ : ∃ m, n = m + 1 := ⟨n - 1, by simp at hn; omega⟩
    rw [List.cons_append, scanVal, if_neg (by decide), if_pos rfl, dumpsPairs]
    rfl
  | .obj ((k, v) :: l), h, n, rest, hn, _ => by
    rw [dumps] at hn ⊢
    obtain ⟨m, rfl⟩ : ∃ m, n = m + 1 := ⟨n - 1, by simp at hn; omega⟩
    rw [List.cons_append, scanVal, if_neg (by decide), if_pos rfl]
    unfold Val.Ok OkPairs at h
    rw [dumpsPairs] at hn ⊢
    have := scanPairs_dumps k v l h.2.1 h.2.2.1 h.2.2.2 m rest (by simp at hn ⊢; omega)
    have e : quoted k ++ 58 :: 32 :: (dumps v ++ dumpsPairsRest l) ++ rest =
        34 :: (k.flatMap escape ++ 34 :: 58 :: 32 :: (dumps v ++ dumpsPairsRest l ++ rest)) := by
      unfold quoted
      simp
    rw [e] at this ⊢
    rw [skip_of (by decide)]
    show Option.map _ (scanPairs m _) = _
    rw [this]
    show some (Val.obj (dictOf ((k, v) :: l)), rest) = _
    rw [dictOf_nodup h.1]
termination_by v => sizeOf v

theorem scanItems_dumps : (v : Val) → (l : List Val) → v.Ok → OkList l → ∀ (n : Nat) (rest : Text),
    2 * (dumps v ++ dumpsListRest l).length + 1 ≤ n →
    scanItems n (dumps v ++ dumpsListRest l ++ rest) = some (v :: l, rest)
  | v, [], hv, _, n, rest, hn => by
    obtain ⟨m, rfl⟩ : ∃ m, n = m + 1 := ⟨n - 1, by omega⟩
    have e1 : dumps v ++ dumpsListRest [] ++ rest = dumps v ++ 93 :: rest := by
      rw [dumpsListRest]
      simp
    rw [e1, scanItems, scanVal_dumps v hv m _ (by simp at hn; omega) (.inr ⟨_, _, rfl, .inr (.inl rfl)⟩)]
    rfl
  | v, w :: l, hv, hl, n, rest, hn => by
    obtain ⟨m, rfl⟩ : ∃ m, n = m + 1 := ⟨n - 1, by omega⟩
    unfold OkList at hl
    have ih := scanItems_dumps w l hl.1 hl.2 m rest (by rw [dumpsListRest] at hn; simp at hn ⊢; omega)
    have e1 : dumps v ++ dumpsListRest (w :: l) ++ rest = dumps v ++ 44 :: 32 :: (dumps w ++ dumpsListRest l ++ rest) := by
      rw [dumpsListRest]
      simp
    obtain ⟨c, s, e, hc⟩ := dumps_starts w hl.1
    rw [e1, scanItems, scanVal_dumps v hv m _ (by simp at hn; omega) (.inr ⟨_, _, rfl, .inl rfl⟩)]
    dsimp only
    rw [skip_of (by decide)]
    show Option.map _ (scanItems m (skip (32 :: _))) = _
    rw [skip_blank]
    have e2 : skip (dumps w ++ dumpsListRest l ++ rest) = dumps w ++ dumpsListRest l ++ rest := by
      rw [e, List.cons_append, List.cons_append, skip_starts hc]
    rw [e2, ih]
    rfl
termination_by v l => sizeOf v + sizeOf l + 1

theorem scanPairs_dumps : (k : Text) → (v : Val) → (l : List (Text × Val)) → Plain k → v.Ok → OkPairs l → ∀ (n : Nat) (rest : Text),
    2 * (quoted k ++ 58 :: 32 :: (dumps v ++ dumpsPairsRest l)).length + 1 ≤ n →
    scanPairs n (quoted k ++ 58 :: 32 :: (dumps v ++ dumpsPairsRest l) ++ rest) = some ((k, v) :: l, rest)
  | k, v, [], hk, hv, _, n, rest, hn => by
    obtain ⟨m, rfl⟩ : ∃ m, n = m + 1 := ⟨n - 1, by omega⟩
    have e1 : quoted k ++ 58 :: 32 :: (dumps v ++ dumpsPairsRest []) ++ rest =
        quoted k ++ 58 :: 32 :: (dumps v ++ 125 :: rest) := by
      rw [dumpsPairsRest]
      simp
    rw [e1, scanPairs_head hk hv (scanVal_dumps v hv m _ (by simp at hn; omega) (.inr ⟨_, _, rfl, .inr (.inr rfl)⟩))]
    rfl
  | k, v, (k2, v2) :: l, hk, hv, hl, n, rest, hn => by
    obtain ⟨m, rfl⟩ : ∃ m, n = m + 1 := ⟨n - 1, by omega⟩
    unfold OkPairs at hl
    have ih := scanPairs_dumps k2 v2 l hl.1 hl.2.1 hl.2.2 m rest (by rw [dumpsPairsRest] at hn; simp at hn ⊢; omega)
    have e1 : quoted k ++ 58 :: 32 :: (dumps v ++ dumpsPairsRest ((k2, v2) :: l)) ++ rest =
        quoted k ++ 58 :: 32 :: (dumps v ++ 44 :: 32 :: (quoted k2 ++ 58 :: 32 :: (dumps v2 ++ dumpsPairsRest l) ++ rest)) := by
      rw [dumpsPairsRest]
      simp
    rw [e1, scanPairs_head hk hv (scanVal_dumps v hv m _ (by simp at hn; omega) (.inr ⟨_, _, rfl, .inl rfl⟩)),
      skip_of (by decide)]
    show Option.map _ (scanPairs m (skip (32 :: _))) = _
    rw [skip_blank]
    have e4 : skip (quoted k2 ++ 58 :: 32 :: (dumps v2 ++ dumpsPairsRest l) ++ rest) =
        quoted k2 ++ 58 :: 32 :: (dumps v2 ++ dumpsPairsRest l) ++ rest := by
      unfold quoted
      exact skip_of (by decide) _
    rw [e4, ih]
    rfl
termination_by k v l => sizeOf v + sizeOf l + 1
end

theorem loads_dumps {v : Val} (h : v.Ok) : loads (dumps v) = some v := by
  have := scanVal_dumps v h (2 * (dumps v).length + 1) [] (by omega) (.inl rfl)
  rw [List.append_nil] at this
  obtain ⟨c, s, e, hc⟩ := dumps_starts v h
  have hs : skip (dumps v) = dumps v := by rw [e, skip_starts hc]
  unfold loads
  rw [hs, this]
  rfl

/-! ### Sorted keys -/

theorem sortKeysList_eq : ∀ l, sortKeysList l = l.map sortKeys
  | [] => by rw [sortKeysList]; rfl
  | v :: l => by rw [sortKeysList, sortKeysList_eq l]; rfl

theorem sortKeysPairs_eq : ∀ l, sortKeysPairs l = l.map fun kv => (kv.1, sortKeys kv.2)
  | [] => by rw [sortKeysPairs]; rfl
  | (k, v) :: l => by rw [sortKeysPairs, sortKeysPairs_eq l]; rfl

theorem okList_iff : ∀ {l : List Val}, OkList l ↔ ∀ v ∈ l, v.Ok
  | [] => by simp [OkList]
  | v :: l => by simp [OkList, okList_iff (l := l)]

theorem okPairs_iff : ∀ {l : List (Text × Val)}, OkPairs l ↔ ∀ kv ∈ l, Plain kv.1 ∧ kv.2.Ok
  | [] => by simp [OkPairs]
  | (k, v) :: l => by simp [OkPairs, okPairs_iff (l := l), and_assoc]

theorem sortItems_perm {α : Type} (l : List (Text × α)) : (sortItems l).Perm l := sortedBy_perm _ _

mutual
theorem sortKeys_ok : (v : Val) → v.Ok → (sortKeys v).Ok
  | .null, h => by rw [sortKeys]; exact h; all_goals (intro _ h; cases h)
  | .bool _, h => by rw [sortKeys]; exact h; all_goals (intro _ h; cases h)
  | .int _, h => by rw [sortKeys]; exact h; all_goals (intro _ h; cases h)
  | .float _, h => by rw [sortKeys]; exact h; all_goals (intro _ h; cases h)
  | .str _, h => by rw [sortKeys]; exact h; all_goals (intro _ h; cases h)
  | .arr l, h => by
    rw [sortKeys]
    rw [Val.Ok] at h ⊢
    exact sortKeysList_ok l h
  | .obj l, h => by
    rw [sortKeys]
    rw [Val.Ok] at h ⊢
    have h2 := sortKeysPairs_ok l h.2
    have hp := sortItems_perm (sortKeysPairs l)
    refine ⟨(hp.map _).nodup_iff.2 ?_, okPairs_iff.2 fun kv hkv => okPairs_iff.1 h2 kv (hp.mem_iff.1 hkv)⟩
    rw [sortKeysPairs_eq, List.map_map]
    exact h.1

theorem sortKeysList_ok : (l : List Val) → OkList l → OkList (sortKeysList l)
  | [], _ => by rw [sortKeysList]; trivial
  | v :: l, h => by
    rw [OkList] at h
    rw [sortKeysList, OkList]
    exact ⟨sortKeys_ok v h.1, sortKeysList_ok l h.2⟩

theorem sortKeysPairs_ok : (l : List (Text × Val)) → OkPairs l → OkPairs (sortKeysPairs l)
  | [], _ => by rw [sortKeysPairs]; trivial
  | (k, v) :: l, h => by
    rw [OkPairs] at h
    rw [sortKeysPairs, OkPairs]
    exact ⟨h.1, sortKeys_ok v h.2.1, sortKeysPairs_ok l h.2.2⟩
end

theorem find?_perm_key {α : Type} {l m : List (Text × α)} (h : l.Perm m) (hn : (l.map (·.1)).Nodup) (k : Text) :
    (l.find? fun x => x.1 == k) = m.find? fun x => x.1 == k := by
  induction h with
  | nil => rfl
  | cons x _ ih =>
    simp only [List.find?_cons]
    rw [ih (List.nodup_cons.1 hn).2]
  | swap x y l =>
    simp only [List.find?_cons]
    by_cases h1 : x.1 = k
    · by_cases h2 : y.1 = k
      · rw [List.map_cons, List.map_cons, List.nodup_cons] at hn
        exact absurd (h2.trans h1.symm) fun e => hn.1 (e ▸ List.mem_cons_self ..)
      · rw [show (y.1 == k) = false by simp [h2], show (x.1 == k) = true by simp [h1]]
    · rw [show (x.1 == k) = false by simp [h1]]
  | trans h1 _ ih1 ih2 => rw [ih1 hn, ih2 ((h1.map _).nodup_iff.1 hn)]

theorem sortKeys_shape (v : Val) : (sortKeys v).shape = v.shape := by
  cases v <;> (rw [sortKeys]; try rfl) <;> (intro _ h; cases h)

theorem sortKeys_same : ∀ (p : List (Text ⊕ Nat)) (v : Val), v.Ok →
    ((sortKeys v).find p).map Val.shape = (v.find p).map Val.shape
  | [], v, _ => by
    simp only [Val.find, Option.map_some, sortKeys_shape]
  | .inl k :: p, .obj l, h => by
    rw [sortKeys]
    rw [Val.Ok] at h
    simp only [Val.find]
    have hp := sortItems_perm (sortKeysPairs l)
    rw [find?_perm_key hp ((hp.map _).nodup_iff.2 (by rw [sortKeysPairs_eq, List.map_map]; exact h.1)), sortKeysPairs_eq,
      List.find?_map]
    show Option.map _ (Option.bind (Option.map _ (l.find? fun x => x.1 == k)) _) = _
    cases e : l.find? (fun x => x.1 == k) with
    | none => rfl
    | some x => exact sortKeys_same p x.2 ((okPairs_iff.1 h.2) x (List.mem_of_find?_eq_some e)).2
  | .inr i :: p, .arr l, h => by
    rw [sortKeys]
    rw [Val.Ok] at h
    simp only [Val.find]
    rw [sortKeysList_eq, List.getElem?_map]
    cases e : l[i]? with
    | none => rfl
    | some x => exact sortKeys_same p x (okList_iff.1 h x (List.mem_of_getElem? e))
  | .inl _ :: _, .arr l, _ => by rw [sortKeys]; rfl
  | .inr _ :: _, .obj l, _ => by rw [sortKeys]; rfl
  | _ :: _, .null, _ => by rw [sortKeys]; all_goals (intro _ h; cases h)
  | _ :: _, .bool _, _ => by rw [sortKeys]; all_goals (intro _ h; cases h)
  | _ :: _, .int _, _ => by rw [sortKeys]; all_goals (intro _ h; cases h)
  | _ :: _, .float _, _ => by rw [sortKeys]; all_goals (intro _ h; cases h)
  | _ :: _, .str _, _ => by rw [sortKeys]; all_goals (intro _ h; cases h)

/-! ### What characters are written -/

theorem hexDigit_ascii {n : Nat} (h : n < 16) : 32 ≤ hexDigit n ∧ hexDigit n ≤ 126 := by
  unfold hexDigit
  split <;> omega

theorem hex4_ascii (n : Nat) : ∀ c ∈ hex4 n, 32 ≤ c ∧ c ≤ 126 := by
  intro c hc
  simp only [hex4, List.mem_cons, List.not_mem_nil, or_false] at hc
  rcases hc with rfl | rfl | rfl | rfl | rfl | rfl
  · omega
  · omega
  all_goals exact hexDigit_ascii (Nat.mod_lt _ (by omega))

theorem escape_ascii (x : Nat) : ∀ c ∈ escape x, 32 ≤ c ∧ c ≤ 126 := by
  intro c hc
  unfold escape at hc
  repeat' split at hc
  all_goals first
    | exact hex4_ascii _ c hc
    | (simp only [List.mem_cons, List.not_mem_nil, or_false] at hc; omega)
    | (rcases List.mem_append.1 hc with hc | hc <;> exact hex4_ascii _ c hc)

theorem quoted_ascii (s : Text) : ∀ c ∈ quoted s, 32 ≤ c ∧ c ≤ 126 := by
  intro c hc
  unfold quoted at hc
  rw [List.mem_append, List.mem_cons, List.mem_flatMap, List.mem_singleton] at hc
  rcases hc with (rfl | ⟨x, -, hx⟩) | rfl
  · omega
  · exact escape_ascii x c hx
  · omega

theorem digits_ascii (n : Nat) : ∀ c ∈ digits n, 32 ≤ c ∧ c ≤ 126 := by
  intro c hc
  have := digitsAux_digit _ _ c hc
  simp only [isDigit, Bool.and_eq_true, decide_eq_true_eq] at this
  omega

theorem intText_ascii (i : Int) : ∀ c ∈ intText i, 32 ≤ c ∧ c ≤ 126 := by
  intro c hc
  cases i with
  | ofNat n => exact digits_ascii n c hc
  | negSucc n =>
    rcases List.mem_cons.1 hc with rfl | hc
    · omega
    · exact digits_ascii _ c hc

mutual
theorem dumps_ascii : (v : Val) → v.Ok → ∀ c ∈ dumps v, 32 ≤ c ∧ c ≤ 126
  | .null, _ => by rw [dumps]; decide
  | .bool true, _ => by rw [dumps]; decide
  | .bool false, _ => by rw [dumps]; decide
  | .int i, _ => by rw [dumps]; exact intText_ascii i
  | .float _, h => by rw [Val.Ok] at h; exact h.elim
  | .str s, _ => by rw [dumps]; exact quoted_ascii s
  | .arr [], _ => by rw [dumps, dumpsList]; decide
  | .arr (v :: l), h => by
    rw [Val.Ok, OkList] at h
    rw [dumps, dumpsList]
    intro c hc
    rcases List.mem_cons.1 hc with rfl | hc
    · omega
    · rcases List.mem_append.1 hc with hc | hc
      · exact dumps_ascii v h.1 c hc
      · exact dumpsListRest_ascii l h.2 c hc
  | .obj [], _ => by rw [dumps, dumpsPairs]; decide
  | .obj ((k, v) :: l), h => by
    rw [Val.Ok, OkPairs] at h
    rw [dumps, dumpsPairs]
    intro c hc
    rcases List.mem_cons.1 hc with rfl | hc
    · omega
    · rcases List.mem_append.1 hc with hc | hc
      · exact quoted_ascii k c hc
      · rcases List.mem_cons.1 hc with rfl | hc
        · omega
        · rcases List.mem_cons.1 hc with rfl | hc
          · omega
          · rcases List.mem_append.1 hc with hc | hc
            · exact dumps_ascii v h.2.2.1 c hc
            · exact dumpsPairsRest_ascii l h.2.2.2 c hc

theorem dumpsListRest_ascii : (l : List Val) → OkList l → ∀ c ∈ dumpsListRest l, 32 ≤ c ∧ c ≤ 126
  | [], _ => by rw [dumpsListRest]; decide
  | v :: l, h => by
    rw [OkList] at h
    rw [dumpsListRest]
    intro c hc
    rcases List.mem_cons.1 hc with rfl | hc
    · omega
    · rcases List.mem_cons.1 hc with rfl | hc
      · omega
      · rcases List.mem_append.1 hc with hc | hc
        · exact dumps_ascii v h.1 c hc
        · exact dumpsListRest_ascii l h.2 c hc

theorem dumpsPairsRest_ascii : (l : List (Text × Val)) → OkPairs l → ∀ c ∈ dumpsPairsRest l, 32 ≤ c ∧ c ≤ 126
  | [], _ => by rw [dumpsPairsRest]; decide
  | (k, v) :: l, h => by
    rw [OkPairs] at h
    rw [dumpsPairsRest]
    intro c hc
    rcases List.mem_cons.1 hc with rfl | hc
    · omega
    · rcases List.mem_cons.1 hc with rfl | hc
      · omega
      · rcases List.mem_append.1 hc with hc | hc
        · exact quoted_ascii k c hc
        · rcases List.mem_cons.1 hc with rfl | hc
          · omega
          · rcases List.mem_cons.1 hc with rfl | hc
            · omega
            · rcases List.mem_append.1 hc with hc | hc
              · exact dumps_ascii v h.2.1 c hc
              · exact dumpsPairsRest_ascii l h.2.2 c hc
end

/-! ### Texts without surrogates -/

theorem char_valid (c : Char) : c.toNat < 0xD800 ∨ (0xDFFF < c.toNat ∧ c.toNat < 0x110000) := c.valid

theorem ofStr_plain (s : Toron.Selectors.PyStr) : Plain (ofStr s) := by
  constructor
  · intro c hc
    obtain ⟨x, -, rfl⟩ := List.mem_map.1 hc
    have := char_valid x
    omega
  · rintro a h l b he ⟨h1, -⟩
    have : h ∈ ofStr s := by rw [he]; simp
    obtain ⟨x, -, rfl⟩ := List.mem_map.1 this
    have := char_valid x
    omega

theorem ofStr_inj : Function.Injective ofStr := by
  have hinj : Function.Injective Char.toNat := by
    intro a b h
    exact Char.ext (UInt32.toNat_inj.1 h)
  exact hinj.list_map

open Toron.Space (Attrs canonAttrs)

theorem ofAttrs_ok {a : Attrs} (h : (a.map (·.1)).Nodup) : (ofAttrs a).Ok := by
  unfold ofAttrs
  rw [Val.Ok]
  constructor
  · rw [List.map_map]
    rw [show (fun x : Text × Val => x.1) ∘ (fun kv : Toron.Selectors.PyStr × Toron.Selectors.PyStr =>
      (ofStr kv.1, Val.str (ofStr kv.2))) = ofStr ∘ (·.1) from rfl, ← List.map_map]
    exact h.map ofStr_inj
  · rw [okPairs_iff]
    intro kv hkv
    obtain ⟨x, -, rfl⟩ := List.mem_map.1 hkv
    refine ⟨ofStr_plain _, ?_⟩
    rw [Val.Ok]
    exact ofStr_plain _

theorem ofAttrs_inj : Function.Injective ofAttrs := by
  intro a b h
  unfold ofAttrs at h
  injection h with h
  refine Function.Injective.list_map ?_ h
  rintro ⟨k, v⟩ ⟨k', v'⟩ e
  rw [Prod.mk.injEq, Val.str.injEq] at e
  exact Prod.ext (ofStr_inj e.1) (ofStr_inj e.2)

theorem sortKeys_ofAttrs (a : Attrs) : sortKeys (ofAttrs a) = ofAttrs (canonAttrs a) := by
  unfold ofAttrs
  rw [sortKeys, sortKeysPairs_eq, List.map_map]
  have : (fun kv : Text × Val => (kv.1, sortKeys kv.2)) ∘ (fun kv : Toron.Selectors.PyStr × Toron.Selectors.PyStr =>
      (ofStr kv.1, Val.str (ofStr kv.2))) = fun kv => (ofStr kv.1, Val.str (ofStr kv.2)) := by
    funext kv
    show (ofStr kv.1, sortKeys (Val.str (ofStr kv.2))) = _
    rw [sortKeys]
    all_goals (intro _ h; cases h)
  rw [this]
  congr 1
  unfold sortItems canonAttrs
  exact Toron.Space.Spell.sortedBy_map _ _ _ (fun a b => rfl) _

/-! ### Some of the items -/

theorem dictSet_map_fst (d : List (Text × Val)) (k : Text) (v : Val) :
    (dictSet d k v).map (·.1) = if k ∈ d.map (·.1) then d.map (·.1) else d.map (·.1) ++ [k] := by
  unfold dictSet
  by_cases h : k ∈ d.map (·.1)
  · rw [if_pos h, if_pos (by
      obtain ⟨x, hx, rfl⟩ := List.mem_map.1 h
      exact List.any_eq_true.2 ⟨x, hx, by simp⟩), List.map_map]
    apply List.map_congr_left
    intro x _
    show (if x.1 == k then (k, v) else x).1 = x.1
    by_cases e : x.1 = k
    · rw [if_pos (by simp [e])]
      exact e.symm
    · rw [if_neg (by simp [e])]
  · rw [if_neg h, if_neg (by
      intro hc
      obtain ⟨x, hx, e⟩ := List.any_eq_true.1 hc
      exact h (List.mem_map.2 ⟨x, hx, by simpa using e⟩)), List.map_append]
    rfl

theorem dictSet_mem {d : List (Text × Val)} {k : Text} {v : Val} {x : Text × Val} (h : x ∈ dictSet d k v) : x ∈ d ∨ x = (k, v) := by
  unfold dictSet at h
  split at h
  · obtain ⟨y, hy, rfl⟩ := List.mem_map.1 h
    by_cases e : y.1 = k
    · exact .inr (if_pos (by simp [e]))
    · left
      rw [if_neg (by simp [e])]
      exact hy
  · rcases List.mem_append.1 h with h | h
    · exact .inl h
    · exact .inr (List.mem_singleton.1 h)

theorem dictOf_sub : ∀ (pairs d : List (Text × Val)), (d.map (·.1)).Nodup →
    ((pairs.foldl (fun d kv => dictSet d kv.1 kv.2) d).map (·.1)).Nodup ∧
    (∀ k, k ∈ (pairs.foldl (fun d kv => dictSet d kv.1 kv.2) d).map (·.1) ↔ k ∈ d.map (·.1) ∨ k ∈ pairs.map (·.1)) ∧
    ∀ x ∈ pairs.foldl (fun d kv => dictSet d kv.1 kv.2) d, x ∈ d ∨ x ∈ pairs
  | [], d, h => ⟨h, by simp, by simp⟩
  | (k, v) :: pairs, d, h => by
    have hk : ∀ k', k' ∈ (dictSet d k v).map (·.1) ↔ k' ∈ d.map (·.1) ∨ k' = k := by
      intro k'
      rw [dictSet_map_fst]
      split_ifs with hm
      · constructor
        · exact .inl
        · rintro (h | rfl)
          · exact h
          · exact hm
      · rw [List.mem_append, List.mem_singleton]
    obtain ⟨h1, h2, h3⟩ := dictOf_sub pairs (dictSet d k v) (by
      rw [dictSet_map_fst]
      split_ifs with hm
      · exact h
      · rw [List.nodup_append]
        exact ⟨h, by simp, by rintro a ha b hb rfl; exact hm (List.mem_singleton.1 hb ▸ ha)⟩)
    refine ⟨h1, fun k' => ?_, fun x hx => ?_⟩
    · rw [List.foldl_cons, h2 k', hk k', List.map_cons, List.mem_cons]
      tauto
    · rcases h3 x hx with hx | hx
      · rcases dictSet_mem hx with hx | rfl
        · exact .inl hx
        · exact .inr (List.mem_cons_self ..)
      · exact .inr (List.mem_cons_of_mem _ hx)

theorem find?_of_mem {α : Type} {l : List (Text × α)} (hn : (l.map (·.1)).Nodup) {x : Text × α} (hx : x ∈ l) :
    (l.find? fun y => y.1 == x.1) = some x := by
  induction l with
  | nil => cases hx
  | cons y l ih =>
    rw [List.find?_cons]
    rw [List.map_cons, List.nodup_cons] at hn
    rcases List.mem_cons.1 hx with rfl | hx
    · simp
    · rw [show (y.1 == x.1) = false by
        simp only [beq_eq_false_iff_ne]
        intro e
        exact hn.1 (e ▸ List.mem_map_of_mem hx)]
      exact ih hn.2 hx

theorem find?_none {α : Type} {l : List (Text × α)} {k : Text} (h : k ∉ l.map (·.1)) : (l.find? fun y => y.1 == k) = none := by
  rw [List.find?_eq_none]
  intro x hx e
  exact h (List.mem_map.2 ⟨x, hx, by simpa using e⟩)

/-- The items with the given keys. -/
theorem keep_sub {l : List (Text × Val)} (hn : (l.map (·.1)).Nodup) (keys : List Text) {sub : List (Text × Val)}
    (hs : sub = dictOf (keys.filterMap fun k => (l.find? fun kv => kv.1 == k).map fun kv => (k, kv.2))) :
    (sub.map (·.1)).Nodup ∧ (∀ x ∈ sub, x ∈ l) ∧ ∀ k, k ∈ sub.map (·.1) ↔ k ∈ keys ∧ k ∈ l.map (·.1) := by
  have hmem : ∀ x, x ∈ (keys.filterMap fun k => (l.find? fun kv => kv.1 == k).map fun kv => (k, kv.2)) ↔ x ∈ l ∧ x.1 ∈ keys := by
    intro x
    rw [List.mem_filterMap]
    constructor
    · rintro ⟨k, hk, e⟩
      obtain ⟨y, hy, rfl⟩ := Option.map_eq_some_iff.1 e
      have h1 := List.mem_of_find?_eq_some hy
      have h2 : y.1 = k := by simpa using List.find?_some hy
      subst h2
      exact ⟨h1, hk⟩
    · rintro ⟨hx, hk⟩
      exact ⟨x.1, hk, by rw [find?_of_mem hn hx]; rfl⟩
  obtain ⟨h1, h2, h3⟩ := dictOf_sub (keys.filterMap fun k => (l.find? fun kv => kv.1 == k).map fun kv => (k, kv.2)) [] List.nodup_nil
  subst hs
  refine ⟨h1, fun x hx => ?_, fun k => ?_⟩
  · rcases h3 x hx with h | h
    · cases h
    · exact ((hmem x).1 h).1
  · refine (h2 k).trans ?_
    constructor
    · rintro (h | h)
      · cases h
      · obtain ⟨x, hx, rfl⟩ := List.mem_map.1 h
        exact ⟨((hmem x).1 hx).2, List.mem_map_of_mem ((hmem x).1 hx).1⟩
    · rintro ⟨hk, h⟩
      obtain ⟨x, hx, rfl⟩ := List.mem_map.1 h
      exact .inr (List.mem_map_of_mem ((hmem x).2 ⟨hx, hk⟩))

end Toron.Json
