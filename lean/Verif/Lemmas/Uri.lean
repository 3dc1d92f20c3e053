/-
Lemmas about names of files.
-/
import Verif.Spec.Uri

namespace Toron.Uri

open Toron.Selectors (PyStr)

/-! ### UTF-8 -/

theorem utf8Char_cases (c : Char) :
    (c.toNat < 128 ∧ String.utf8EncodeChar c = [UInt8.ofNat c.toNat]) ∨
    (128 ≤ c.toNat ∧ ∀ b ∈ String.utf8EncodeChar c, 128 ≤ b.toNat) := by
  unfold String.utf8EncodeChar
  have hc : c.val.toNat = c.toNat := rfl
  dsimp only
  rw [hc]
  by_cases h1 : c.toNat ≤ 127
  · rw [if_pos h1]
    exact .inl ⟨by omega, rfl⟩
  · rw [if_neg h1]
    refine .inr ⟨by omega, ?_⟩
    have key : ∀ n, 128 ≤ n → n < 256 → 128 ≤ (UInt8.ofNat n).toNat := by
      intro n h1 h2
      rw [UInt8.toNat_ofNat']
      omega
    by_cases h2 : c.toNat ≤ 2047
    · rw [if_pos h2]
      simp only [List.forall_mem_cons]
      exact ⟨key _ (by omega) (by omega), key _ (by omega) (by omega), by simp⟩
    · rw [if_neg h2]
      by_cases h3 : c.toNat ≤ 65535
      · rw [if_pos h3]
        simp only [List.forall_mem_cons]
        exact ⟨key _ (by omega) (by omega), key _ (by omega) (by omega), key _ (by omega) (by omega), by simp⟩
      · rw [if_neg h3]
        simp only [List.forall_mem_cons]
        exact ⟨key _ (by omega) (by omega), key _ (by omega) (by omega), key _ (by omega) (by omega),
          key _ (by omega) (by omega), by simp⟩

theorem utf8Char_ascii {c : Char} (h : c.toNat < 128) : String.utf8EncodeChar c = [UInt8.ofNat c.toNat] := by
  rcases utf8Char_cases c with ⟨_, h'⟩ | ⟨h', _⟩
  · exact h'
  · omega

/-- A byte of ASCII is in the encoding of that character only. -/
theorem utf8Char_mem {c : Char} {b : UInt8} (hb : b.toNat < 128) (h : b ∈ String.utf8EncodeChar c) :
    c.toNat = b.toNat := by
  rcases utf8Char_cases c with ⟨hc, h'⟩ | ⟨_, h'⟩
  · rw [h', List.mem_singleton] at h
    rw [h, UInt8.toNat_ofNat']
    omega
  · have := h' b h
    omega

theorem utf8_append (a b : PyStr) : utf8 (a ++ b) = utf8 a ++ utf8 b := List.flatMap_append ..

theorem utf8_cons (c : Char) (t : PyStr) : utf8 (c :: t) = String.utf8EncodeChar c ++ utf8 t := rfl

theorem toNat_inj {a b : Char} (h : a.toNat = b.toNat) : a = b := Char.toNat_inj.1 h

theorem utf8_zero {t : PyStr} (h : Char.ofNat 0 ∉ t) : 0 ∉ utf8 t := by
  intro hm
  obtain ⟨c, hc, hb⟩ := List.mem_flatMap.1 hm
  have he : c = Char.ofNat 0 := toNat_inj (utf8Char_mem (b := 0) (by decide) hb)
  exact h (he ▸ hc)

theorem utf8Char_cons_inj {c d : Char} {x y : List UInt8}
    (h : String.utf8EncodeChar c ++ x = String.utf8EncodeChar d ++ y) : c = d ∧ x = y := by
  have hb : (String.utf8EncodeChar c).toByteArray ++ x.toByteArray =
      (String.utf8EncodeChar d).toByteArray ++ y.toByteArray := by
    rw [← List.toByteArray_append, ← List.toByteArray_append, h]
  have hd := ByteArray.utf8DecodeChar?_utf8EncodeChar_append (b := x.toByteArray) (c := c)
  rw [hb, ByteArray.utf8DecodeChar?_utf8EncodeChar_append] at hd
  cases hd
  exact ⟨rfl, List.append_cancel_left h⟩

theorem utf8_inj {a b : PyStr} (h : utf8 a = utf8 b) : a = b := by
  induction a generalizing b with
  | nil =>
    cases b with
    | nil => rfl
    | cons d b =>
      rw [utf8_cons] at h
      exact absurd (List.append_eq_nil_iff.1 h.symm).1 String.utf8EncodeChar_ne_nil
  | cons c a ih =>
    cases b with
    | nil =>
      rw [utf8_cons] at h
      exact absurd (List.append_eq_nil_iff.1 h).1 String.utf8EncodeChar_ne_nil
    | cons d b =>
      rw [utf8_cons, utf8_cons] at h
      obtain ⟨rfl, h'⟩ := utf8Char_cons_inj h
      rw [ih h']

/-! ### Repeated slashes -/

/-- Repetitions of one element are left out. -/
def sq {α : Type} [DecidableEq α] (x : α) (prev : Bool) : List α → List α
  | [] => []
  | c :: t => if c == x && prev then sq x true t else c :: sq x (c == x) t

theorem squeeze_eq (prev : Bool) (t : PyStr) : squeeze prev t = sq '/' prev t := by
  induction t generalizing prev with
  | nil => rfl
  | cons c t ih => rw [squeeze, sq, ih, ih]

theorem sq_others {α : Type} [DecidableEq α] {x : α} {l t : List α} (hl : ∀ c ∈ l, c ≠ x) (hne : l ≠ []) (prev : Bool) :
    sq x prev (l ++ t) = l ++ sq x false t := by
  induction l generalizing prev with
  | nil => exact absurd rfl hne
  | cons c l ih =>
    have hc : (c == x) = false := beq_false_of_ne (hl c (by simp))
    rw [List.cons_append, sq, hc]
    simp only [Bool.false_and, Bool.false_eq_true, if_false, List.cons_append]
    cases l with
    | nil => rfl
    | cons d l => rw [ih (fun e he => hl e (by simp [he])) (by simp)]

/-- Squeezing commutes with a translation of the elements that keeps the slash apart. -/
theorem sq_flatMap {α β : Type} [DecidableEq α] [DecidableEq β] {x : α} {y : β} {f : α → List β} (hx : f x = [y])
    (hne : ∀ c, f c ≠ []) (ho : ∀ c, c ≠ x → ∀ d ∈ f c, d ≠ y) (l : List α) (prev : Bool) :
    sq y prev (l.flatMap f) = (sq x prev l).flatMap f := by
  induction l generalizing prev with
  | nil => rfl
  | cons c l ih =>
    rw [List.flatMap_cons, sq]
    by_cases hc : c = x
    · subst hc
      rw [hx, List.singleton_append, sq, beq_self_eq_true, beq_self_eq_true]
      cases prev with
      | true => simpa using ih true
      | false =>
        simp only [Bool.true_and, Bool.false_eq_true, if_false, List.flatMap_cons, hx, List.singleton_append]
        rw [ih]
    · rw [sq_others (ho c hc) (hne c), ih, beq_false_of_ne hc]
      simp

theorem utf8_squeeze (prev : Bool) (t : PyStr) : sq 47 prev (utf8 t) = utf8 (squeeze prev t) := by
  rw [squeeze_eq]
  refine sq_flatMap (by decide) (fun c => String.utf8EncodeChar_ne_nil) ?_ t prev
  intro c hc d hd hd'
  subst hd'
  exact hc (toNat_inj (utf8Char_mem (by decide) hd))

theorem sq_collapsed {α : Type} [DecidableEq α] (x : α) (t : List α) (prev : Bool) :
    (prev = true → ∀ l, sq x prev t ≠ x :: l) ∧ ¬ ∃ a b, sq x prev t = a ++ x :: x :: b := by
  induction t generalizing prev with
  | nil => exact ⟨fun _ l h => (nomatch h), by rintro ⟨a, b, h⟩; cases a <;> cases h⟩
  | cons c t ih =>
    rw [sq]
    by_cases hc : c = x
    · subst hc
      cases prev with
      | true => simpa using ih true
      | false =>
        simp only [beq_self_eq_true, Bool.true_and, Bool.false_eq_true, if_false]
        refine ⟨fun h => (nomatch h), ?_⟩
        rintro ⟨a, b, h⟩
        cases a with
        | nil => exact (ih true).1 rfl b (List.cons.inj h).2
        | cons d a => exact (ih true).2 ⟨a, b, (List.cons.inj h).2⟩
    · rw [beq_false_of_ne hc]
      simp only [Bool.false_and, Bool.false_eq_true, if_false]
      refine ⟨fun _ l h => hc (List.cons.inj h).1, ?_⟩
      rintro ⟨a, b, h⟩
      cases a with
      | nil => exact hc (List.cons.inj h).1
      | cons d a => exact (ih false).2 ⟨a, b, (List.cons.inj h).2⟩

theorem Shorter.cons {a b : PyStr} (c : Char) (h : Shorter a b) : Shorter (c :: a) (c :: b) := by
  obtain ⟨x, y, rfl, rfl⟩ := h
  exact ⟨c :: x, y, rfl, rfl⟩

theorem shorter_cons {a b : PyStr} (c : Char) (h : Relation.ReflTransGen Shorter a b) :
    Relation.ReflTransGen Shorter (c :: a) (c :: b) := by
  induction h with
  | refl => exact .refl
  | tail _ h ih => exact ih.tail (h.cons c)

theorem squeeze_shorter (t : PyStr) :
    Relation.ReflTransGen Shorter t (squeeze false t) ∧
    Relation.ReflTransGen Shorter ('/' :: t) ('/' :: squeeze true t) := by
  induction t with
  | nil => exact ⟨.refl, .refl⟩
  | cons c t ih =>
    rw [squeeze, squeeze]
    by_cases hc : c = '/'
    · subst hc
      simp only [beq_self_eq_true, Bool.true_and, Bool.false_eq_true, if_false, if_true]
      exact ⟨ih.2, .head ⟨[], t, rfl, rfl⟩ ih.2⟩
    · rw [beq_false_of_ne hc]
      simp only [Bool.false_and, Bool.false_eq_true, if_false]
      exact ⟨shorter_cons c ih.1, shorter_cons '/' (shorter_cons c ih.1)⟩

theorem collapsed_squeeze (t : PyStr) : Collapsed t (squeeze false t) :=
  ⟨(squeeze_shorter t).1, by rw [squeeze_eq]; exact (sq_collapsed '/' t false).2⟩

theorem Shorter.squeeze_eq {a b : PyStr} (h : Shorter a b) (prev : Bool) : squeeze prev a = squeeze prev b := by
  obtain ⟨x, y, rfl, rfl⟩ := h
  induction x generalizing prev with
  | nil =>
    cases prev with
    | true => simp [squeeze]
    | false => simp [squeeze]
  | cons c x ih =>
    rw [List.cons_append, List.cons_append, squeeze, squeeze, ih, ih]

theorem squeeze_id {t : PyStr} : ∀ {prev : Bool}, (¬ ∃ x y, t = x ++ '/' :: '/' :: y) →
    (prev = true → ∀ y, t ≠ '/' :: y) → squeeze prev t = t := by
  induction t with
  | nil => intros; rfl
  | cons c t ih =>
    intro prev h1 h2
    rw [squeeze]
    have ht : ¬ ∃ x y, t = x ++ '/' :: '/' :: y := by
      rintro ⟨x, y, rfl⟩
      exact h1 ⟨c :: x, y, rfl⟩
    have hp : (c == '/' && prev) = false := by
      by_cases hc : c = '/'
      · subst hc
        cases prev with
        | true => exact absurd rfl (h2 rfl t)
        | false => rfl
      · rw [beq_false_of_ne hc]; rfl
    rw [hp]
    simp only [Bool.false_eq_true, if_false]
    rw [ih ht]
    intro hc y hy
    rw [beq_iff_eq] at hc
    exact h1 ⟨[], y, by rw [hc, hy]; rfl⟩

/-- There is just one collapsed form. -/
theorem Collapsed.eq {a b : PyStr} (h : Collapsed a b) : b = squeeze false a := by
  obtain ⟨h1, h2⟩ := h
  have : squeeze false a = squeeze false b := by
    clear h2
    induction h1 with
    | refl => rfl
    | tail _ h ih => rw [ih, h.squeeze_eq]
  rw [this, squeeze_id (prev := false) h2 (fun h => (nomatch h))]

/-! ### Quoted bytes -/

theorem quoteByte_slash : quoteByte 47 = ['/'] := by decide

theorem forall_byte {P : UInt8 → Prop} (h : ∀ n < 256, P (UInt8.ofNat n)) (b : UInt8) : P b := by
  have := h b.toNat b.toNat_lt
  rwa [UInt8.ofNat_toNat] at this

theorem quoteByte_ne_nil (b : UInt8) : quoteByte b ≠ [] := by
  unfold quoteByte; split <;> simp

/-- The characters of a quoted byte. -/
theorem quoteByte_chars (b : UInt8) : ∀ c ∈ quoteByte b, c ≠ '#' ∧ c ≠ '?' ∧ (b ≠ 47 → c ≠ '/') := by
  revert b
  refine forall_byte ?_
  decide +kernel

theorem quote_squeeze (path : PyStr) : squeeze false (quote path) = (utf8 (squeeze false path)).flatMap quoteByte := by
  rw [squeeze_eq, quote, sq_flatMap quoteByte_slash quoteByte_ne_nil
    (fun c hc d hd => (quoteByte_chars c d hd).2.2 hc), utf8_squeeze]

/-! ### Reading -/

theorem safe_char (b : UInt8) (h : safe b = true) : (Char.ofNat b.toNat).toNat = b.toNat ∧ b.toNat < 128 ∧
    Char.ofNat b.toNat ≠ '%' := by
  revert b
  refine forall_byte ?_
  decide +kernel

theorem hex_char (b : UInt8) : hexValue (hexDigit (b.toNat / 16)) = some (b.toNat / 16) ∧
    hexValue (hexDigit (b.toNat % 16)) = some (b.toNat % 16) := by
  revert b
  refine forall_byte ?_
  decide +kernel

theorem scan_file {c : Char} (h : c ≠ '#') (f : List UInt8) (t : PyStr) :
    scan ⟨.file, false, f, [], [], []⟩ (c :: t) =
      if c = '%' then
        match t with
        | a :: b :: u =>
          match hexValue a, hexValue b with
          | some i, some j =>
            if i * 16 + j = 0 then scan ⟨.file, true, f, [], [], []⟩ u
            else scan ⟨.file, false, f ++ [UInt8.ofNat (i * 16 + j)], [], [], []⟩ u
          | _, _ => scan ⟨.file, false, f ++ [37], [], [], []⟩ (a :: b :: u)
        | [a] => scan ⟨.file, false, f ++ [37], [], [], []⟩ [a]
        | [] => scan ⟨.file, false, f ++ [37], [], [], []⟩ []
      else if c = '?' then scan ⟨.name, false, f, [], [], []⟩ t
      else scan ⟨.file, false, f ++ String.utf8EncodeChar c, [], [], []⟩ t := by
  rw [scan.eq_def]
  dsimp only
  rw [if_neg h, if_neg (by simp)]
  simp only [Part.ends, beq_iff_eq]
  rfl

theorem scan_byte {b : UInt8} (hb : b ≠ 0) (f : List UInt8) (t : PyStr) :
    scan ⟨.file, false, f, [], [], []⟩ (quoteByte b ++ t) = scan ⟨.file, false, f ++ [b], [], [], []⟩ t := by
  have hch := quoteByte_chars b
  unfold quoteByte at hch ⊢
  by_cases hs : safe b = true
  · rw [if_pos hs] at hch ⊢
    obtain ⟨h1, h2, h3⟩ := safe_char b hs
    obtain ⟨h4, h5, _⟩ := hch _ (List.mem_singleton_self _)
    have hu : String.utf8EncodeChar (Char.ofNat b.toNat) = [b] := by
      rw [utf8Char_ascii (by omega), h1, UInt8.ofNat_toNat]
    rw [List.singleton_append, scan_file h4, if_neg h3, if_neg h5, hu]
  · rw [if_neg hs]
    obtain ⟨h1, h2⟩ := hex_char b
    have hn : b.toNat / 16 * 16 + b.toNat % 16 = b.toNat := by omega
    have h0 : b.toNat ≠ 0 := fun h => hb (UInt8.toNat_inj.1 h)
    rw [List.cons_append, List.cons_append, List.cons_append, List.nil_append,
      scan_file (by decide), if_pos rfl]
    dsimp only
    rw [h1, h2]
    dsimp only
    rw [hn, if_neg h0, UInt8.ofNat_toNat]

theorem scan_bytes {bs : List UInt8} (hb : 0 ∉ bs) (f : List UInt8) (t : PyStr) :
    scan ⟨.file, false, f, [], [], []⟩ (bs.flatMap quoteByte ++ t) = scan ⟨.file, false, f ++ bs, [], [], []⟩ t := by
  induction bs generalizing f with
  | nil => simp
  | cons b bs ih =>
    rw [List.flatMap_cons, List.append_assoc, scan_byte (fun h => hb (by simp [h])), ih (fun h => hb (by simp [h])),
      List.append_assoc, List.singleton_append]

/-- The end of a name. -/
def modeText : Option PyStr → PyStr
  | some m => ['?', 'm', 'o', 'd', 'e', '='] ++ m
  | none => []

theorem scan_mode {mode : Option PyStr} (hm : ∀ m, mode = some m → m ∈ modes) (skip : Bool) (f : List UInt8) :
    scan ⟨.file, skip, f, [], [], []⟩ (modeText mode) = ⟨f, modeOption mode⟩ := by
  cases mode with
  | none => rfl
  | some m =>
    have := hm m rfl
    simp only [modes, List.mem_cons, List.not_mem_nil, or_false] at this
    rcases this with rfl | rfl | rfl <;> cases skip <;> rfl

theorem scan_skip {l : PyStr} (hl : ∀ c ∈ l, c ≠ '#' ∧ c ≠ '?') (f : List UInt8) (t : PyStr) :
    scan ⟨.file, true, f, [], [], []⟩ (l ++ t) = scan ⟨.file, true, f, [], [], []⟩ t := by
  induction l with
  | nil => rfl
  | cons c l ih =>
    obtain ⟨h1, h2⟩ := hl c (by simp)
    rw [List.cons_append, scan.eq_def]
    dsimp only
    rw [if_neg h1, if_pos (by simp), if_neg (by simpa [Part.ends] using h2), ih fun d hd => hl d (by simp [hd])]

theorem makeUri_eq (path : PyStr) (mode : Option PyStr) : makeUri path mode =
    ['f', 'i', 'l', 'e', ':'] ++ ((utf8 (squeeze false path)).flatMap quoteByte ++ modeText mode) := by
  unfold makeUri
  rw [quote_squeeze, List.append_assoc]
  cases mode <;> rfl

theorem parseUri_file {t : PyStr} (h : ∀ l, t ≠ '/' :: '/' :: l) :
    parseUri (['f', 'i', 'l', 'e', ':'] ++ t) = some (scan ⟨.file, false, [], [], [], []⟩ t) := by
  show parseUri ('f' :: 'i' :: 'l' :: 'e' :: ':' :: t) = _
  unfold parseUri
  split
  · rename_i l heq
    exact absurd (by simpa using heq) (h l)
  · rename_i l _ heq
    have : t = l := by simpa using heq
    rw [this]
  · rename_i h1 h2
    exact absurd rfl (h2 t)

theorem no_host (path : PyStr) (mode : Option PyStr) (l : PyStr) :
    (utf8 (squeeze false path)).flatMap quoteByte ++ modeText mode ≠ '/' :: '/' :: l := by
  rw [← quote_squeeze, squeeze_eq]
  have h := (sq_collapsed '/' (quote path) false).2
  generalize sq '/' false (quote path) = q at h
  intro he
  match q, h, he with
  | [], _, he => cases mode <;> simp [modeText] at he
  | [c], _, he => cases mode <;> simp [modeText] at he
  | c :: d :: q, h, he =>
    simp only [List.cons_append, List.cons.injEq] at he
    exact h ⟨[], q, by rw [he.1, he.2.1]; rfl⟩

theorem parseUri_makeUri (path : PyStr) (mode : Option PyStr) : parseUri (makeUri path mode) =
    some (scan ⟨.file, false, [], [], [], []⟩ ((utf8 (squeeze false path)).flatMap quoteByte ++ modeText mode)) := by
  rw [makeUri_eq, parseUri_file (no_host path mode)]

end Toron.Uri
