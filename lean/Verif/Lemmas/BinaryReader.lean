/-
Lemmas about reading and translating with floating-point numbers.
-/
import Verif.Model.BinaryReader
import Verif.Spec.BinaryReader
import Verif.Props.BinaryRead
import Verif.Props.Reader
import Verif.Lemmas.BinaryTranslate

namespace Toron.Space

open Toron.Selectors (PyStr Sel CaseMap getGreatestUniqueSpecificity asciiCase)
open Toron.Spec
open Toron.Binary (Near near_fl near_refl)

/-! ### Rows that differ by the rounding of `k` operations -/

def NearValue (k : ℕ) : Option ℚ → Option ℚ → Prop
  | some v, some f => Near k f v
  | none, none => True
  | _, _ => False

def NearRow (k : ℕ) (x y : ReaderRow) : Prop := x.index = y.index ∧ x.attrs = y.attrs ∧ NearValue k x.value y.value

def NearReader (k : ℕ) (r f : Reader) : Prop :=
  r.keys = f.keys ∧ r.attrData = f.attrData ∧ List.Forall₂ (NearRow k) r.rows f.rows

theorem NearValue.mono {k l : ℕ} {v f : Option ℚ} (h : NearValue k v f) (hkl : k ≤ l) : NearValue l v f := by
  cases v <;> cases f <;> simp only [NearValue] at h ⊢
  exact h.mono hkl

theorem NearReader.close {k : ℕ} {r f : Reader} (h : NearReader k r f) (hk : k ≤ 2 ^ 52) :
    r.CloseTo ((k : ℚ) / 2 ^ 52) f := by
  refine ⟨h.1, h.2.1, h.2.2.imp fun x y hxy => ⟨hxy.1, hxy.2.1, ?_⟩⟩
  have h3 := hxy.2.2
  cases hx : x.value <;> cases hy : y.value <;> rw [hx, hy] at h3 <;> simp only [NearValue, CloseValue] at h3 ⊢
  exact h3.abs_sub hk

/-- The number held for a proportion is the proportion but for the rounding of `n` operations. -/
def HeldNear (n : ℕ) (s : Store) (held : Mapping → ℚ) : Prop :=
  ∀ m ∈ s.maps, m.other ≠ 0 → ∀ p, m.prop = some p → Near n (held m) p

theorem flatMapE_alike₂ {α α' β : Type} {S : List β → List β → Prop} (hnil : S [] [])
    (happ : ∀ a b a' b', S a b → S a' b' → S (a ++ a') (b ++ b')) {R : α → α' → Prop} {f : α → Except Err (List β)}
    {g : α' → Except Err (List β)} {l : List α} {l' : List α'} (hl : List.Forall₂ R l l')
    (h : ∀ x y, R x y → Alike S (f x) (g y)) : Alike S (flatMapE f l) (flatMapE g l') := by
  induction hl with
  | nil => exact .inl ⟨[], [], rfl, rfl, hnil⟩
  | @cons x y xs ys hxy _ ih =>
    unfold flatMapE
    rcases h x y hxy with ⟨a, b, h1, h2, h3⟩ | ⟨e, h1, h2⟩
    · rw [h1, h2]
      rcases ih with ⟨a', b', g1, g2, g3⟩ | ⟨e, g1, g2⟩
      · rw [g1, g2]
        exact .inl ⟨a ++ a', b ++ b', rfl, rfl, happ _ _ _ _ h3 g3⟩
      · rw [g1, g2]
        exact .inr ⟨e, rfl, rfl⟩
    · rw [h1, h2]
      exact .inr ⟨e, rfl, rfl⟩

theorem scaleBy_near {n k : ℕ} {s : Store} {held : Mapping → ℚ} (hh : HeldNear n s held) {v f : Option ℚ}
    (hv : NearValue k v f) {m : Mapping} (hm : m ∈ s.maps) (ho : m.other ≠ 0) :
    Alike (List.Forall₂ fun a b : Nat × ℚ => a.1 = b.1 ∧ Near (k + n + 1) b.2 a.2) (scaleBy v m) (scaleByF held f m) := by
  unfold scaleBy scaleByF
  cases v with
  | none =>
    cases f with
    | none => exact .inr ⟨_, rfl, rfl⟩
    | some f => cases hv
  | some v =>
    cases f with
    | none => cases hv
    | some f =>
      cases hp : m.prop with
      | none => exact .inr ⟨_, rfl, rfl⟩
      | some p =>
        refine .inl ⟨_, _, rfl, rfl, .cons ⟨rfl, ?_⟩ .nil⟩
        have h1 : Near k (held m * f) (held m * v) := Near.mul_left hv (held m)
        have h2 : Near n (v * held m) (v * p) := (hh m hm ho p hp).mul_left v
        have h3 := near_fl (f * held m)
        rw [mul_comm f, mul_comm (held m) v] at *
        exact ((h3.trans h1).trans h2).mono (by omega)

theorem translateRow_near {n k : ℕ} {s : Store} {held : Mapping → ℚ} (hh : HeldNear n s held) (link : Nat)
    {x y : ReaderRow} (hxy : NearRow k x y) :
    Alike (List.Forall₂ (NearRow (k + n + 1))) (s.translateRow link false x) (s.translateRowF held link false y) := by
  obtain ⟨hi, ha, hv⟩ := hxy
  unfold Store.translateRow Store.translateRowF
  rw [← hi, ← ha]
  by_cases h0 : x.index = 0
  · rw [if_pos h0, if_pos h0]
    exact .inl ⟨_, _, rfl, rfl, .cons ⟨hi, ha, hv.mono (by omega)⟩ .nil⟩
  rw [if_neg h0, if_neg h0]
  have := flatMapE_alike (S := List.Forall₂ fun a b : Nat × ℚ => a.1 = b.1 ∧ Near (k + n + 1) b.2 a.2) .nil
    (fun a b a' b' h h' => forall₂_append _ _ _ _ _ h h') (f := scaleBy x.value) (g := scaleByF held y.value)
    (s.findMaps link x.index) (fun m hm => by
      unfold Store.findMaps at hm
      rw [List.mem_filter] at hm
      obtain ⟨hm1, hm2⟩ := hm
      simp only [Bool.and_eq_true, beq_iff_eq] at hm2
      exact scaleBy_near hh hv hm1 (by rw [hm2.2]; exact_mod_cast h0))
  rcases this with ⟨a, b, h1, h2, h3⟩ | ⟨e, h1, h2⟩
  · rw [h1, h2]
    refine .inl ⟨_, _, rfl, rfl, ?_⟩
    rw [List.forall₂_map_left_iff, List.forall₂_map_right_iff]
    exact h3.imp fun a b h => ⟨h.1, rfl, h.2⟩
  · rw [h1, h2]
    exact .inr ⟨e, rfl, rfl⟩

/-- Two readers that end alike. -/
def AlikeReader (k : ℕ) (a b : Except Err Reader) : Prop :=
  (∃ r f, a = .ok r ∧ b = .ok f ∧ NearReader k r f) ∨ ∃ e, a = .error e ∧ b = .error e

theorem translate_near {n k : ℕ} {trg : Store} {held : Mapping → ℚ} (hh : HeldNear n trg held) (cm : CaseMap) (src : Store)
    {r f : Reader} (h : NearReader k r f) :
    AlikeReader (k + n + 1) (r.translate cm src trg false) (f.translateF cm src trg held false) := by
  obtain ⟨hk, ha, hr⟩ := h
  unfold Reader.translate Reader.translateF
  simp only [bind, Except.bind]
  rcases trg.linkChooser src.uid (src.indexHash.map Int.ofNat) with e | ch
  · exact .inr ⟨e, rfl, rfl⟩
  simp only
  rw [← ha]
  generalize flatMapE _ r.attrData = links
  rcases links with e | links
  · exact .inr ⟨e, rfl, rfl⟩
  simp only
  generalize hA : flatMapE _ r.rows = A
  generalize hB : flatMapE _ f.rows = B
  have : Alike (List.Forall₂ (NearRow (k + n + 1))) A B := by
    rw [← hA, ← hB]
    refine flatMapE_alike₂ .nil (fun a b a' b' h h' => forall₂_append _ _ _ _ _ h h') hr ?_
    intro x y hxy
    rw [← hxy.2.1]
    rcases lookupLink links x.attrs with _ | l
    · exact .inl ⟨[], [], rfl, rfl, .nil⟩
    · exact translateRow_near hh l hxy
  rcases this with ⟨a, b, h1, h2, h3⟩ | ⟨e, h1, h2⟩
  · rw [h1, h2]
    exact .inl ⟨_, _, rfl, rfl, hk, rfl, h3⟩
  · rw [h1, h2]
    exact .inr ⟨e, rfl, rfl⟩

theorem along_near (cm : CaseMap) {n : ℕ} (ts : List (Store × (Mapping → ℚ))) (ht : ∀ t ∈ ts, HeldNear n t.1 t.2) :
    ∀ (src : Store) (k : ℕ) (r f : Reader), NearReader k r f →
      AlikeReader (k + ts.length * (n + 1)) (Reader.along cm false src (ts.map (·.1)) r) (Reader.alongF cm false src ts f) := by
  induction ts with
  | nil =>
    intro src k r f h
    exact .inl ⟨r, f, rfl, rfl, by simpa using h⟩
  | cons t ts ih =>
    intro src k r f h
    rw [List.map_cons]
    unfold Reader.along Reader.alongF
    simp only [bind, Except.bind]
    rcases translate_near (ht t (by simp)) cm src h with ⟨r', f', h1, h2, h3⟩ | ⟨e, h1, h2⟩
    · rw [h1, h2]
      have := ih (fun x hx => ht x (by simp [hx])) t.1 _ _ _ h3
      rw [List.length_cons, show k + (ts.length + 1) * (n + 1) = k + n + 1 + ts.length * (n + 1) by ring]
      exact this
    · rw [h1, h2]
      exact .inr ⟨e, rfl, rfl⟩

/-! ### Reading -/

def NearRows (k : ℕ) (rows rowsF : List (Nat × Attrs × ℚ)) : Prop :=
  List.Forall₂ (fun r f => r.1 = f.1 ∧ r.2.1 = f.2.1 ∧ Near k f.2.2 r.2.2) rows rowsF

theorem disaggOne_near {s : Store} (hw : WeightInv s) (cm : CaseMap) (dflt : Nat) (finest : Bool) (l : LocRec) (q : Quant) :
    Alike (NearRows (s.index.length + 2)) (s.disaggOne cm dflt finest false l q)
      (s.disaggOneF cm dflt finest false l q) := by
  unfold Store.disaggOne Store.disaggOneF
  have hlen := matchingIds_length s l.labels
  rcases hids : s.matchingIds l.labels with _ | ⟨i, is⟩
  · exact .inr ⟨_, rfl, rfl⟩
  rw [hids] at hlen
  simp only [bind, Except.bind]
  rcases ha : s.getAttrs q.ag with e | attrs
  · exact .inr ⟨_, rfl, rfl⟩
  simp only
  by_cases hfin : finest = true
  · rw [if_pos hfin, if_pos hfin]
    exact .inl ⟨_, _, rfl, rfl, .cons ⟨rfl, rfl, near_refl _ _⟩ .nil⟩
  rw [if_neg hfin, if_neg hfin]
  rcases hg : getGreatestUniqueSpecificity cm (s.withDomain attrs) s.selectorDict dflt with e | group
  · exact .inr ⟨_, rfl, rfl⟩
  simp only
  rcases Binary.disagg_near q.value (i :: is) (s.weightOf group) fun i w h => weightOf_nonneg hw h with
    ⟨out, parts, h1, h2, h3, -⟩ | ⟨e, h1, h2⟩
  · rw [h1, h2]
    refine .inl ⟨_, _, rfl, rfl, ?_⟩
    unfold NearRows
    rw [List.forall₂_map_left_iff, List.forall₂_map_right_iff]
    exact h3.flip.imp fun p o h => ⟨h.1.symm, rfl, h.2.mono (by omega)⟩
  · rw [h1, h2]
    exact .inr ⟨e, rfl, rfl⟩

theorem call_near {s : Store} (hr : Reachable s) (cm : CaseMap) (sels : List Sel) :
    Alike (NearRows (s.index.length + 2)) (s.call cm sels false) (s.callF cm sels false) := by
  refine call_alike .nil ?_ ?_
  · intro a b a' b' h h'
    exact forall₂_append _ _ _ _ _ h h'
  · intro dflt finest l _ q _ _
    exact disaggOne_near hr.weightInv cm dflt finest l q

theorem reader_near {s : Store} (hr : Reachable s) (cm : CaseMap) (sels : List Sel) (sumBy : List PyStr) :
    AlikeReader (s.index.length + 2) (s.reader cm sels false sumBy) (s.readerF cm sels false sumBy) := by
  unfold Store.reader Store.readerF
  simp only [bind, Except.bind]
  rcases call_near hr cm sels with ⟨rows, rowsF, h1, h2, h3⟩ | ⟨e, h1, h2⟩
  swap
  · rw [h1, h2]
    exact .inr ⟨e, rfl, rfl⟩
  rw [h1, h2]
  refine .inl ⟨_, _, rfl, rfl, ?_⟩
  have he : rows.map (·.2.1) = rowsF.map (·.2.1) := by
    clear h1 h2
    induction h3 with
    | nil => rfl
    | cons h _ ih => rw [List.map_cons, List.map_cons, h.2.1, ih]
  have e1 : rows.map (fun d => canonAttrs (s.keepAttrs sumBy d.2.1)) =
      (rows.map (·.2.1)).map fun a => canonAttrs (s.keepAttrs sumBy a) := by rw [List.map_map]; rfl
  have e2 : rowsF.map (fun d => canonAttrs (s.keepAttrs sumBy d.2.1)) =
      (rowsF.map (·.2.1)).map fun a => canonAttrs (s.keepAttrs sumBy a) := by rw [List.map_map]; rfl
  have k1 : rows.flatMap (fun d => (s.keepAttrs sumBy d.2.1).map (·.1)) =
      (rows.map (·.2.1)).flatMap fun a => (s.keepAttrs sumBy a).map (·.1) := by rw [List.flatMap_map]
  have k2 : rowsF.flatMap (fun d => (s.keepAttrs sumBy d.2.1).map (·.1)) =
      (rowsF.map (·.2.1)).flatMap fun a => (s.keepAttrs sumBy a).map (·.1) := by rw [List.flatMap_map]
  refine ⟨?_, ?_, ?_⟩
  · unfold Reader.new
    dsimp only
    rw [List.flatMap_map, List.flatMap_map, k1, k2, he]
  · unfold Reader.new
    dsimp only
    rw [List.map_map, List.map_map]
    have : ∀ l : List (Nat × Attrs × ℚ), l.map ((fun d : Nat × Attrs × Option ℚ => canonAttrs d.2.1) ∘
        fun d => (d.1, s.keepAttrs sumBy d.2.1, some d.2.2)) = l.map fun d => canonAttrs (s.keepAttrs sumBy d.2.1) :=
      fun _ => rfl
    rw [this, this, e1, e2, he]
  · unfold Reader.new
    dsimp only
    rw [List.map_map, List.map_map, List.forall₂_map_left_iff, List.forall₂_map_right_iff]
    refine h3.imp fun a b h => ?_
    dsimp only [Function.comp, NearRow]
    exact ⟨h.1, by rw [h.2.1], h.2.2⟩

theorem readAlong_near {s : Store} (hr : Reachable s) (cm : CaseMap) (sels : List Sel) (sumBy : List PyStr) {n : ℕ}
    (ts : List (Store × (Mapping → ℚ))) (ht : ∀ t ∈ ts, HeldNear n t.1 t.2) :
    AlikeReader (s.index.length + 2 + ts.length * (n + 1))
      (s.reader cm sels false sumBy >>= Reader.along cm false s (ts.map (·.1)))
      (s.readerF cm sels false sumBy >>= Reader.alongF cm false s ts) := by
  simp only [bind, Except.bind]
  rcases reader_near hr cm sels sumBy with ⟨r, f, h1, h2, h3⟩ | ⟨e, h1, h2⟩
  · rw [h1, h2]
    exact along_near cm ts ht s _ r f h3
  · rw [h1, h2]
    exact .inr ⟨e, rfl, rfl⟩

/-! ### The proportions that are computed -/

theorem computedProp_near {s : Store} (hr : Reachable s) (hf : s.Refreshed) {n : ℕ}
    (hn : ∀ l o, (s.findMaps l o).length ≤ n) : HeldNear (n + 1) s s.computedProp := by
  intro m hm ho p hp
  have hv : ∀ x ∈ (s.findMaps m.link m.other).map (·.value), 0 ≤ x := by
    intro x hx
    obtain ⟨m', hm', rfl⟩ := List.mem_map.1 hx
    have := hr.mapInv.checks m' (List.mem_of_mem_filter hm')
    simp only [mappingCheck, Bool.and_eq_true, decide_eq_true_eq] at this
    exact this.1.1
  have hs := Binary.plusAll_near _ hv
  rw [List.length_map] at hs
  obtain ⟨t, ht, hteq⟩ := hs.pos
  have hiff : Binary.plusAll ((s.findMaps m.link m.other).map (·.value)) = 0 ↔
      ((s.findMaps m.link m.other).map (·.value)).sum = 0 := by
    rw [hteq, mul_eq_zero]
    exact ⟨fun h => h.resolve_left ht.ne', .inr⟩
  rw [hf m hm ho p hp]
  unfold Store.computedProp
  dsimp only
  have hl := hn m.link m.other
  by_cases h0 : ((s.findMaps m.link m.other).map (·.value)).sum = 0
  · rw [if_pos (hiff.2 h0), if_pos h0]
    exact (near_fl _).mono (by omega)
  · rw [if_neg (fun h => h0 (hiff.1 h)), if_neg h0]
    exact ((near_fl _).trans (hs.div m.value)).mono (by omega)

/-! ### What is conserved by exact translations -/

/-- The values of the rows without their signs, added up. -/
def absAmount (rows : List ReaderRow) : ℚ := (rows.map fun x => |x.value.getD 0|).sum

theorem parts_conserve' {parts : List (ReaderRow × List ReaderRow)} (g : ReaderRow → ℚ) (P : Attrs → Bool)
    (h : ∀ p ∈ parts, (p.2.map g).sum = g p.1 ∧ ∀ x ∈ p.2, x.attrs = p.1.attrs) :
    (((parts.flatMap (·.2)).filter fun x => P x.attrs).map g).sum =
      (((parts.map (·.1)).filter fun x => P x.attrs).map g).sum := by
  induction parts with
  | nil => rfl
  | cons p ps ih =>
    obtain ⟨hsum, hat⟩ := h p (by simp)
    rw [List.flatMap_cons, List.map_cons, List.filter_append, List.map_append, List.sum_append,
      ih (fun q hq => h q (List.mem_cons_of_mem _ hq))]
    by_cases ha : P p.1.attrs = true
    · rw [List.filter_cons_of_pos (p := fun x : ReaderRow => P x.attrs) ha, List.filter_eq_self.2 (by
        intro x hx; rw [hat x hx]; exact ha), hsum, List.map_cons, List.sum_cons]
    · rw [List.filter_cons_of_neg (p := fun x : ReaderRow => P x.attrs) ha, List.filter_eq_nil_iff.2 (by
        intro x hx; rw [hat x hx]; exact ha)]
      simp

theorem split_abs {trg : Store} (ht : ReachableTidy trg) {link : Nat} {row : ReaderRow} {parts : List ReaderRow}
    (h : trg.splitBy link false row parts) (hsum : amount parts = row.value.getD 0) :
    absAmount parts = |row.value.getD 0| := by
  unfold Store.splitBy at h
  by_cases h0 : row.index = 0
  · rw [if_pos h0] at h
    subst h
    simp [absAmount]
  rw [if_neg h0] at h
  obtain ⟨ms, hp, hne, hf⟩ := h
  have hms : ∀ m ∈ ms, m ∈ trg.maps := fun m hm => List.mem_of_mem_filter (hp.mem_iff.1 hm)
  have hpart : ∀ x ∈ parts, PartOf (x.value.getD 0) (row.value.getD 0) := by
    intro x hx
    obtain ⟨m, hm, -, -, v, q, w, hv, hq, hw, hwq⟩ := Binary.forall₂_mem_right hf x hx
    obtain ⟨q0, q1⟩ := (C15_proportions_partial ht).1 m (hms m hm) q hq
    rw [if_neg (by simp)] at hwq
    rw [hv, hw, hwq]
    unfold PartOf
    dsimp only [Option.getD_some]
    constructor
    · intro h
      exact ⟨by nlinarith, by nlinarith⟩
    · intro h
      exact ⟨by nlinarith, by nlinarith⟩
  have := abs_parts (parts := parts.map fun x => (x.index, x.value.getD 0)) (v := row.value.getD 0) (by
    intro p hp
    obtain ⟨x, hx, rfl⟩ := List.mem_map.1 hp
    exact hpart x hx) (by rw [List.map_map]; exact hsum)
  rw [List.map_map] at this
  exact this

theorem translate_keeps {n : ℕ} {src trg : Store} (hs : Reachable src) (ht : trg.GoodTarget n) {r r' : Reader} (hr : r.Ok)
    (hrows : ∀ x ∈ r.rows, x.index ∈ src.ids) {cm : CaseMap} (h : r.translate cm src trg false = .ok r') :
    r'.Ok ∧ (∀ x ∈ r'.rows, x.index ∈ trg.ids) ∧ ∀ P : Attrs → Bool,
      amount (r'.rows.filter fun x => P x.attrs) = amount (r.rows.filter fun x => P x.attrs) ∧
      absAmount (r'.rows.filter fun x => P x.attrs) = absAmount (r.rows.filter fun x => P x.attrs) := by
  obtain ⟨link, hl, parts, h1, h2, h3⟩ := C17_split hs ht.tidy ht.hashed hr hrows h
  obtain ⟨d, dict, f, parts', _, _, _, hr', _⟩ := translate_parts hr h
  refine ⟨⟨?_, ?_, ?_, ?_⟩, ?_, ?_⟩
  · intro x hx
    rw [h2] at hx
    obtain ⟨p, hp, hx⟩ := List.mem_flatMap.1 hx
    rw [(h3 p hp).2.2 x hx, hr']
    exact hr.known _ (h1 ▸ List.mem_map_of_mem hp)
  · rw [hr']; exact hr.once
  · rw [hr']; exact hr.sorted
  · rw [hr']; exact hr.cols
  · intro x hx
    rw [h2] at hx
    obtain ⟨p, hp, hx⟩ := List.mem_flatMap.1 hx
    have hsp := (h3 p hp).1
    unfold Store.splitBy at hsp
    by_cases h0 : p.1.index = 0
    · rw [if_pos h0] at hsp
      rw [hsp] at hx
      rw [List.mem_singleton.1 hx, h0]
      exact List.mem_map_of_mem (f := (·.id)) ht.tidy.reachable.indexInv.undef
    · rw [if_neg h0] at hsp
      obtain ⟨ms, hpm, -, hf⟩ := hsp
      obtain ⟨m, hm, hi, -⟩ := Binary.forall₂_mem_right hf x hx
      rw [hi]
      exact ht.refs m (List.mem_of_mem_filter (hpm.mem_iff.1 hm))
  · intro P
    constructor
    · rw [h2, parts_conserve P fun p hp => (h3 p hp).2, h1]
    · unfold absAmount
      rw [h2, parts_conserve' (fun x => |x.value.getD 0|) P (fun p hp => ⟨?_, (h3 p hp).2.2⟩), h1]
      exact split_abs ht.tidy (h3 p hp).1 (h3 p hp).2.1

theorem along_keeps {n : ℕ} {cm : CaseMap} (ts : List Store) (ht : ∀ t ∈ ts, t.GoodTarget n) :
    ∀ (src : Store) (r r' : Reader), Reachable src → r.Ok → (∀ x ∈ r.rows, x.index ∈ src.ids) →
      Reader.along cm false src ts r = .ok r' → ∀ P : Attrs → Bool,
      amount (r'.rows.filter fun x => P x.attrs) = amount (r.rows.filter fun x => P x.attrs) ∧
      absAmount (r'.rows.filter fun x => P x.attrs) = absAmount (r.rows.filter fun x => P x.attrs) := by
  induction ts with
  | nil =>
    intro src r r' _ _ _ h P
    cases h
    exact ⟨rfl, rfl⟩
  | cons t ts ih =>
    intro src r r' hs hr hrows h P
    unfold Reader.along at h
    simp only [bind, Except.bind] at h
    rcases h1 : r.translate cm src t false with e | r1
    · rw [h1] at h; cases h
    rw [h1] at h
    obtain ⟨k1, k2, k3⟩ := translate_keeps hs (ht t (by simp)) hr hrows h1
    obtain ⟨a, b⟩ := ih (fun x hx => ht x (by simp [hx])) t r1 r' (ht t (by simp)).tidy.reachable k1 k2 h P
    exact ⟨a.trans (k3 P).1, b.trans (k3 P).2⟩

theorem close_amount {ε : ℚ} {r f : Reader} (h : r.CloseTo ε f) (P : Attrs → Bool) :
    |amount (f.rows.filter fun x => P x.attrs) - amount (r.rows.filter fun x => P x.attrs)| ≤
      ε * absAmount (r.rows.filter fun x => P x.attrs) := by
  obtain ⟨-, -, h⟩ := h
  generalize r.rows = a at h
  generalize f.rows = b at h
  induction h with
  | nil => simp [amount, absAmount]
  | @cons x y xs ys hxy _ ih =>
    obtain ⟨-, ha, hv⟩ := hxy
    have hv' : |y.value.getD 0 - x.value.getD 0| ≤ ε * |x.value.getD 0| := by
      cases hx : x.value <;> cases hy : y.value <;> rw [hx, hy] at hv <;> simp only [CloseValue] at hv
      · simp
      · exact hv
    by_cases hP : P x.attrs = true
    · rw [List.filter_cons_of_pos (p := fun x : ReaderRow => P x.attrs) hP,
        List.filter_cons_of_pos (p := fun x : ReaderRow => P x.attrs) (ha ▸ hP)]
      unfold amount absAmount at ih ⊢
      rw [List.map_cons, List.map_cons, List.map_cons, List.sum_cons, List.sum_cons, List.sum_cons, mul_add, add_sub_add_comm]
      exact (abs_add_le _ _).trans (add_le_add hv' ih)
    · rw [List.filter_cons_of_neg (p := fun x : ReaderRow => P x.attrs) hP,
        List.filter_cons_of_neg (p := fun x : ReaderRow => P x.attrs) (ha ▸ hP)]
      exact ih

/-! ### Whole numbers -/

theorem split_ids {n : ℕ} {trg : Store} (ht : trg.GoodTarget n) {link : Nat} {q : Bool} {row : ReaderRow}
    {parts : List ReaderRow} (h : trg.splitBy link q row parts) {v : ℚ} (hv : row.value = some v) :
    ∀ x ∈ parts, x.index ∈ trg.ids ∧ ∃ w, x.value = some w := by
  intro x hx
  unfold Store.splitBy at h
  by_cases h0 : row.index = 0
  · rw [if_pos h0] at h
    rw [h] at hx
    rw [List.mem_singleton.1 hx]
    refine ⟨?_, v, hv⟩
    rw [h0]
    exact List.mem_map_of_mem (f := (·.id)) ht.tidy.reachable.indexInv.undef
  · rw [if_neg h0] at h
    obtain ⟨ms, hpm, -, hf⟩ := h
    obtain ⟨m, hm, hi, -, _, _, w, -, -, hw, -⟩ := Binary.forall₂_mem_right hf x hx
    rw [hi]
    exact ⟨ht.refs m (List.mem_of_mem_filter (hpm.mem_iff.1 hm)), w, hw⟩

theorem scaleF_ok {held : Mapping → ℚ} {v : ℚ} {ms : List Mapping} (hp : ∀ m ∈ ms, m.prop = some (m.prop.getD 0)) :
    flatMapE (scaleByF held (some v)) ms = .ok (ms.map fun m => (m.index, Binary.fl (v * held m))) := by
  induction ms with
  | nil => rfl
  | cons m ms ih =>
    unfold flatMapE
    have h1 : scaleByF held (some v) m = .ok [(m.index, Binary.fl (v * held m))] := by
      unfold scaleByF
      rw [hp m (by simp)]
    rw [h1, ih fun x hx => hp x (by simp [hx])]
    rfl

theorem quantizeF_fst {fs out : List (Nat × ℚ)} {v : ℚ} (h : Binary.quantizeValues fs v = .ok out) :
    ∀ o ∈ out, ∃ i ∈ fs, i.1 = o.1 := by
  unfold Binary.quantizeValues at h
  dsimp only at h
  have hs : ∀ x ∈ sortedBy qKeyLe (fs.map mkQItem), ∃ i ∈ fs, i.1 = x.id := by
    intro x hx
    obtain ⟨i, hi, rfl⟩ := List.mem_map.1 ((sortedBy_perm _ _).mem_iff.1 hx)
    exact ⟨i, hi, rfl⟩
  generalize sortedBy qKeyLe (fs.map mkQItem) = xs at h hs
  generalize Binary.fl _ = rem at h
  have ht : ∀ x ∈ xs.take (wholePart rem).natAbs, ∃ i ∈ fs, i.1 = x.id := fun x hx => hs x (List.mem_of_mem_take hx)
  have hd : ∀ x ∈ xs.drop (wholePart rem).natAbs, ∃ i ∈ fs, i.1 = x.id := fun x hx => hs x (List.mem_of_mem_drop hx)
  by_cases h0 : fracPart rem ≠ 0
  · rw [if_pos h0] at h
    generalize xs.drop (wholePart rem).natAbs = rest at h hd
    cases rest with
    | nil => cases h
    | cons x rest =>
      cases h
      intro o ho
      rcases List.mem_append.1 ho with ho | ho
      · obtain ⟨y, hy, rfl⟩ := List.mem_map.1 ho
        exact ht y hy
      · rcases List.mem_cons.1 ho with rfl | ho
        · exact hd x (by simp)
        · obtain ⟨y, hy, rfl⟩ := List.mem_map.1 ho
          exact hd y (by simp [hy])
  · rw [if_neg h0] at h
    cases h
    intro o ho
    rcases List.mem_append.1 ho with ho | ho
    · obtain ⟨y, hy, rfl⟩ := List.mem_map.1 ho
      exact ht y hy
    · obtain ⟨y, hy, rfl⟩ := List.mem_map.1 ho
      exact hd y hy

theorem rowF_whole {n : ℕ} {trg : Store} (ht : trg.GoodTarget n) {held : Mapping → ℚ} (hh : HeldNear (n + 1) trg held)
    {link : Nat} {row : ReaderRow} {z : ℤ} (hv : row.value = some (z : ℚ))
    (hsum : row.index ≠ 0 → propSum ((trg.mapsFrom link row.index).map (·.prop)) = some 1)
    (hn : n + 2 ≤ 2 ^ 52) (hz : ((n : ℤ) + 2) * |z| < 2 ^ 52) :
    ∃ parts, trg.translateRowF held link true row = .ok parts ∧ amount parts = row.value.getD 0 ∧
      ∀ x ∈ parts, x.attrs = row.attrs ∧ x.index ∈ trg.ids ∧ ∃ y : ℤ, x.value = some (y : ℚ) ∧ |y| ≤ |z| := by
  unfold Store.translateRowF
  by_cases h0 : row.index = 0
  · rw [if_pos h0]
    refine ⟨_, rfl, by simp [amount], ?_⟩
    intro x hx
    rw [List.mem_singleton.1 hx]
    refine ⟨rfl, ?_, z, hv, le_refl _⟩
    rw [h0]
    exact List.mem_map_of_mem (f := (·.id)) ht.tidy.reachable.indexInv.undef
  rw [if_neg h0, findMaps_eq]
  obtain ⟨hp, hs⟩ := propSum_one (hsum h0)
  have hlen : (trg.mapsFrom link row.index).length ≤ n := by rw [← findMaps_eq]; exact ht.few _ _
  have hmem : ∀ m ∈ trg.mapsFrom link row.index, m ∈ trg.maps ∧ m.other ≠ 0 := by
    intro m hm
    unfold Store.mapsFrom at hm
    rw [List.mem_filter] at hm
    have h2 := of_decide_eq_true hm.2
    exact ⟨hm.1, by rw [h2.2]; exact_mod_cast h0⟩
  generalize trg.mapsFrom link row.index = ms at hp hs hlen hmem
  rw [hv, scaleF_ok hp]
  simp only [bind, Except.bind, if_true]
  obtain ⟨out, h1, h2, h3⟩ := Binary.quantize_whole (k := n + 2) (z := z)
    (fs := ms.map fun m => (m.index, Binary.fl ((z : ℚ) * held m)))
    (parts := ms.map fun m => (m.index, (z : ℚ) * m.prop.getD 0))
    (forall₂_map_same _ _ _ _ fun m hm =>
      ((near_fl _).trans ((hh m (hmem m hm).1 (hmem m hm).2 _ (hp m hm)).mul_left (z : ℚ))).mono (by omega))
    (by
      intro p hpm
      obtain ⟨m, hm, rfl⟩ := List.mem_map.1 hpm
      exact ⟨_, ((C15_proportions_partial ht.tidy).1 m (hmem m hm).1 _ (hp m hm)).1, rfl⟩)
    (by
      unfold total
      rw [List.map_map]
      have : ((fun x : Nat × ℚ => x.2) ∘ fun m : Mapping => (m.index, (z : ℚ) * m.prop.getD 0)) =
          fun m : Mapping => (z : ℚ) * m.prop.getD 0 := rfl
      rw [this, List.sum_map_mul_left, hs, mul_one])
    hn (by omega) (by push_cast; exact hz)
  rw [h1]
  refine ⟨_, rfl, ?_, ?_⟩
  · unfold amount
    rw [List.map_map]
    exact h2
  · intro x hx
    obtain ⟨o, ho, rfl⟩ := List.mem_map.1 hx
    obtain ⟨i, hi, hio⟩ := quantizeF_fst h1 o ho
    obtain ⟨m, hm, rfl⟩ := List.mem_map.1 hi
    obtain ⟨y, hy, -, hyz⟩ := h3 o ho
    refine ⟨rfl, ?_, y, by rw [hy], hyz⟩
    rw [← hio]
    exact ht.refs m (hmem m hm).1

theorem flatMapE_rows {F : ReaderRow → Except Err (List ReaderRow)} {Q : ReaderRow → Prop} (rows : List ReaderRow)
    (h : ∀ x ∈ rows, ∃ parts, F x = .ok parts ∧ amount parts = x.value.getD 0 ∧ ∀ p ∈ parts, p.attrs = x.attrs ∧ Q p) :
    ∃ out, flatMapE F rows = .ok out ∧ (∀ p ∈ out, Q p ∧ ∃ x ∈ rows, p.attrs = x.attrs) ∧ ∀ P : Attrs → Bool,
      amount (out.filter fun x => P x.attrs) = amount (rows.filter fun x => P x.attrs) := by
  induction rows with
  | nil => exact ⟨[], rfl, by simp, fun _ => rfl⟩
  | cons x xs ih =>
    obtain ⟨parts, h1, h2, h3⟩ := h x (by simp)
    obtain ⟨out, g1, g2, g3⟩ := ih fun y hy => h y (by simp [hy])
    refine ⟨parts ++ out, ?_, ?_, ?_⟩
    · unfold flatMapE
      rw [h1, g1]
      rfl
    · intro p hp
      rcases List.mem_append.1 hp with hp | hp
      · exact ⟨(h3 p hp).2, x, by simp, (h3 p hp).1⟩
      · obtain ⟨a, y, hy, b⟩ := g2 p hp
        exact ⟨a, y, by simp [hy], b⟩
    · intro P
      rw [List.filter_append, amount_append, g3 P]
      by_cases hP : P x.attrs = true
      · rw [List.filter_cons_of_pos (p := fun x : ReaderRow => P x.attrs) hP, List.filter_eq_self.2 (by
          intro y hy; rw [(h3 y hy).1]; exact hP), h2]
        simp [amount]
      · rw [List.filter_cons_of_neg (p := fun x : ReaderRow => P x.attrs) hP, List.filter_eq_nil_iff.2 (by
          intro y hy; rw [(h3 y hy).1]; exact hP)]
        simp [amount]

theorem links_known {cm : CaseMap} {d : Nat} {dict : List (Nat × Option (List Sel))} {F : Attrs → Except Err (List (Attrs × Nat))}
    (hF : ∀ a, F a = (do
      let l ← getGreatestUniqueSpecificity cm a dict d
      .ok [(a, l)])) {attrs : List Attrs} {links : List (Attrs × Nat)} (h : flatMapE F attrs = .ok links) :
    ∀ a ∈ attrs, ∃ l, lookupLink links a = some l ∧ getGreatestUniqueSpecificity cm a dict d = .ok l := by
  obtain ⟨bs, hb1, rfl, hb3⟩ := flatMapE_ok h
  have hb : ∀ b ∈ bs, ∃ l, getGreatestUniqueSpecificity cm b.1 dict d = .ok l ∧ b.2 = [(b.1, l)] := by
    intro b hb
    have := hb3 b hb
    rw [hF] at this
    simp only [bind, Except.bind] at this
    split at this
    · cases this
    rename_i l hg
    exact ⟨l, hg, (Except.ok.inj this).symm⟩
  have hall : ∀ x ∈ bs.flatMap (·.2), getGreatestUniqueSpecificity cm x.1 dict d = .ok x.2 := by
    intro x hx
    obtain ⟨b, hbm, hx⟩ := List.mem_flatMap.1 hx
    obtain ⟨l, hg, he⟩ := hb b hbm
    rw [he, List.mem_singleton] at hx
    rw [hx]
    exact hg
  intro a ha
  rw [← hb1] at ha
  obtain ⟨b, hbm, rfl⟩ := List.mem_map.1 ha
  obtain ⟨l, hg, he⟩ := hb b hbm
  have hmem : (b.1, l) ∈ bs.flatMap (·.2) := List.mem_flatMap.2 ⟨b, hbm, by rw [he]; simp⟩
  have : ∃ l, lookupLink (bs.flatMap (·.2)) b.1 = some l := by
    unfold lookupLink
    rcases hf : (bs.flatMap (·.2)).find? (fun x => x.1 == b.1) with _ | x
    · exact absurd (List.find?_eq_none.1 hf _ hmem) (by simp)
    · exact ⟨x.2, by rw [hf]; rfl⟩
  obtain ⟨l', hl'⟩ := this
  exact ⟨l', hl', hall (b.1, l') (lookupLink_mem hl')⟩

/-- An exact reader and one of whole numbers with the same totals. -/
structure SameTotals (b : ℤ) (s : Store) (r f : Reader) : Prop where
  keys : r.keys = f.keys
  attrData : r.attrData = f.attrData
  okR : r.Ok
  okF : f.Ok
  rowsR : ∀ x ∈ r.rows, x.index ∈ s.ids ∧ ∃ v, x.value = some v
  rowsF : ∀ x ∈ f.rows, x.index ∈ s.ids ∧ ∃ y : ℤ, x.value = some (y : ℚ) ∧ |y| ≤ b
  totals : ∀ P : Attrs → Bool, amount (f.rows.filter fun x => P x.attrs) = amount (r.rows.filter fun x => P x.attrs)

theorem translate_whole {n : ℕ} {b : ℤ} {src trg : Store} (hs : Reachable src) (ht : trg.GoodTarget n)
    {held : Mapping → ℚ} (hh : HeldNear (n + 1) trg held) (hn : n + 2 ≤ 2 ^ 52) (hb : ((n : ℤ) + 2) * b < 2 ^ 52)
    (cm : CaseMap) {r f : Reader} (h : SameTotals b src r f) :
    (∃ r' f', r.translate cm src trg true = .ok r' ∧ f.translateF cm src trg held true = .ok f' ∧
      SameTotals b trg r' f' ∧ ∀ P : Attrs → Bool,
        amount (f'.rows.filter fun x => P x.attrs) = amount (f.rows.filter fun x => P x.attrs)) ∨
    ∃ e, r.translate cm src trg true = .error e ∧ f.translateF cm src trg held true = .error e := by
  unfold Reader.translate Reader.translateF
  simp only [bind, Except.bind]
  rcases hc : trg.linkChooser src.uid (src.indexHash.map Int.ofNat) with e | ch
  · exact .inr ⟨e, rfl, rfl⟩
  simp only
  rw [← h.attrData]
  generalize hlinks : flatMapE _ r.attrData = links
  rcases links with e | links
  · exact .inr ⟨e, rfl, rfl⟩
  simp only
  have hk := links_known (cm := cm) (d := ch.1) (dict := ch.2) (fun a => rfl) hlinks
  have hcur : ∀ a ∈ r.attrData, ∃ l, lookupLink links a = some l ∧ ∀ i ∈ src.ids, i ≠ 0 →
      trg.mapsFrom l i ≠ [] ∧ propSum ((trg.mapsFrom l i).map (·.prop)) = some 1 := by
    intro a ha
    obtain ⟨l, h1, h2⟩ := hk a ha
    obtain ⟨l', hl', hid⟩ := chosen_current hc h2
    refine ⟨l, h1, fun i hi h0 => ?_⟩
    rw [← hid]
    exact current_maps ht.tidy ht.hashed ((currentLink_iff hs).2 hl') hi h0
  have hpos : ∀ m ∈ trg.maps, ∀ p, m.prop = some p → 0 ≤ p :=
    fun m hm p hp => ((C15_proportions_partial ht.tidy).1 m hm p hp).1
  generalize hA : flatMapE _ r.rows = A
  generalize hB : flatMapE _ f.rows = B
  have hexact : ∃ out, A = .ok out ∧ (∀ p ∈ out, (p.index ∈ trg.ids ∧ ∃ v, p.value = some v) ∧
      ∃ x ∈ r.rows, p.attrs = x.attrs) ∧ ∀ P : Attrs → Bool,
      amount (out.filter fun x => P x.attrs) = amount (r.rows.filter fun x => P x.attrs) := by
    rw [← hA]
    refine flatMapE_rows (Q := fun p => p.index ∈ trg.ids ∧ ∃ v, p.value = some v) r.rows fun x hx => ?_
    obtain ⟨l, h1, h2⟩ := hcur x.attrs (h.okR.known x hx)
    obtain ⟨hi, v, hv⟩ := h.rowsR x hx
    obtain ⟨parts, hp⟩ := translateRow_ok (quantize := true) hv (fun h0 => (h2 _ hi h0).2) hpos
    obtain ⟨k1, k2, k3⟩ := translateRow_split (fun h0 => (h2 _ hi h0).2) (fun h0 => (h2 _ hi h0).1) hpos hp
    rw [h1]
    exact ⟨parts, hp, k2, fun p hp => ⟨k3 p hp, split_ids ht k1 hv p hp⟩⟩
  have hfloat : ∃ out, B = .ok out ∧ (∀ p ∈ out, (p.index ∈ trg.ids ∧ ∃ y : ℤ, p.value = some (y : ℚ) ∧ |y| ≤ b) ∧
      ∃ x ∈ f.rows, p.attrs = x.attrs) ∧ ∀ P : Attrs → Bool,
      amount (out.filter fun x => P x.attrs) = amount (f.rows.filter fun x => P x.attrs) := by
    rw [← hB]
    refine flatMapE_rows (Q := fun p => p.index ∈ trg.ids ∧ ∃ y : ℤ, p.value = some (y : ℚ) ∧ |y| ≤ b) f.rows fun x hx => ?_
    obtain ⟨l, h1, h2⟩ := hcur x.attrs (h.attrData ▸ h.okF.known x hx)
    obtain ⟨hi, z, hv, hzb⟩ := h.rowsF x hx
    obtain ⟨parts, k1, k2, k3⟩ := rowF_whole ht hh hv (fun h0 => (h2 _ hi h0).2) hn (by nlinarith)
    rw [h1]
    refine ⟨parts, k1, k2, fun p hp => ?_⟩
    obtain ⟨a1, a2, y, a3, a4⟩ := k3 p hp
    exact ⟨a1, a2, y, a3, a4.trans hzb⟩
  obtain ⟨o1, e1, p1, q1⟩ := hexact
  obtain ⟨o2, e2, p2, q2⟩ := hfloat
  rw [e1, e2]
  refine .inl ⟨_, _, rfl, rfl, ⟨h.keys, rfl, ⟨?_, h.okR.once, h.okR.sorted, h.okR.cols⟩,
    ⟨?_, h.okR.once, h.okR.sorted, ?_⟩, fun x hx => (p1 x hx).1, fun x hx => (p2 x hx).1, fun P => ?_⟩, q2⟩
  · intro x hx
    obtain ⟨-, y, hy, he⟩ := p1 x hx
    rw [he]
    exact h.okR.known y hy
  · intro x hx
    obtain ⟨-, y, hy, he⟩ := p2 x hx
    rw [he]
    exact h.attrData ▸ h.okF.known y hy
  · dsimp only
    rw [← h.keys]
    exact h.okR.cols
  · exact (q2 P).trans ((h.totals P).trans (q1 P).symm)

theorem disaggOneF_small {s : Store} (hi : IndexInv s) (hw : WeightInv s) (hN : s.index.length + 2 ≤ 2 ^ 52) (cm : CaseMap)
    (dflt : Nat) (finest : Bool) (l : LocRec) (q : Quant) {z : ℤ} (hq : q.value = z)
    (hz : ((s.index.length : ℤ) + 2) * |z| < 2 ^ 52) :
    ∃ attrs, (∀ rows, s.disaggOne cm dflt finest true l q = .ok rows → ∀ r ∈ rows, r.2.1 = attrs) ∧
      ∀ rows, s.disaggOneF cm dflt finest true l q = .ok rows →
        ∀ r ∈ rows, r.2.1 = attrs ∧ ∃ y : ℤ, r.2.2 = y ∧ |y| ≤ |z| := by
  unfold Store.disaggOne Store.disaggOneF
  have hlen := matchingIds_length s l.labels
  have hnd := matchingIds_nodup hi l.labels
  rcases hids : s.matchingIds l.labels with _ | ⟨i, is⟩
  · exact ⟨[], fun _ h => (by cases h), fun _ h => (by cases h)⟩
  rw [hids] at hlen hnd
  simp only [bind, Except.bind]
  rcases ha : s.getAttrs q.ag with e | attrs
  · exact ⟨[], fun _ h => (by cases h), fun _ h => (by cases h)⟩
  simp only
  refine ⟨s.withDomain attrs, ?_⟩
  by_cases hfin : finest = true
  · rw [if_pos hfin, if_pos hfin]
    constructor
    · intro rows h r hr
      cases h
      rw [List.mem_singleton.1 hr]
    · intro rows h r hr
      cases h
      rw [List.mem_singleton.1 hr]
      exact ⟨rfl, z, hq, le_refl _⟩
  rw [if_neg hfin, if_neg hfin]
  rcases hg : getGreatestUniqueSpecificity cm (s.withDomain attrs) s.selectorDict dflt with e | group
  · exact ⟨fun _ h => (by cases h), fun _ h => (by cases h)⟩
  simp only
  have hwn : ∀ i w, s.weightOf group i = some w → 0 ≤ w := fun i w h => weightOf_nonneg hw h
  rcases Binary.disagg_near q.value (i :: is) (s.weightOf group) hwn with ⟨fs, parts, h1, h2, h3, h4⟩ | ⟨e, h1, h2⟩
  swap
  · rw [h1, h2]
    exact ⟨fun _ h => (by cases h), fun _ h => (by cases h)⟩
  rw [h1, h2]
  have hfair := disagg_fair (List.cons_ne_nil _ _) hnd h2
  have htp : total parts = q.value := hfair.1.sum
  simp only [if_true]
  have hz' : (((i :: is).length + 2 : ℕ) : ℤ) * |z| < 2 ^ 52 := by
    refine lt_of_le_of_lt (mul_le_mul_of_nonneg_right ?_ (abs_nonneg z)) hz
    have : ((i :: is).length : ℤ) ≤ s.index.length := by exact_mod_cast hlen
    push_cast at this ⊢
    omega
  rw [hq] at h4 htp ⊢
  obtain ⟨out, k1, k2, k3⟩ := Binary.quantize_whole (k := (i :: is).length + 2) (h3.imp fun _ _ h => h.2) h4 htp
    (by omega) (by omega) hz'
  constructor
  · intro rows h r hr
    split at h
    · cases h
    · cases h
      obtain ⟨x, _, rfl⟩ := List.mem_map.1 hr
      rfl
  · intro rows h r hr
    rw [k1] at h
    cases h
    obtain ⟨x, hx, rfl⟩ := List.mem_map.1 hr
    obtain ⟨y, hy, -, hyz⟩ := k3 x hx
    exact ⟨rfl, y, hy, hyz⟩

/-- What is read in whole numbers, with the attributes in the same order and bounded values. -/
def SameSmall (b : ℤ) (rows rowsF : List (Nat × Attrs × ℚ)) : Prop :=
  SameWhole rows rowsF ∧ rows.map (·.2.1) = rowsF.map (·.2.1) ∧ ∀ r ∈ rowsF, ∃ y : ℤ, r.2.2 = y ∧ |y| ≤ b

theorem call_small {s : Store} (hr : Reachable s) (hN : s.index.length + 2 ≤ 2 ^ 52) (cm : CaseMap) (sels : List Sel) {b : ℤ}
    (hb : ((s.index.length : ℤ) + 2) * b < 2 ^ 52) (hq : ∀ q ∈ s.quants, ∃ z : ℤ, q.value = z ∧ |z| ≤ b) :
    Alike (SameSmall b) (s.call cm sels true) (s.callF cm sels true) := by
  refine call_alike ⟨⟨.refl _, by simp, fun _ _ => rfl⟩, rfl, by simp⟩ ?_ ?_
  · rintro a b a' b' ⟨h1, h2, h3⟩ ⟨h1', h2', h3'⟩
    refine ⟨h1.append h1', by rw [List.map_append, List.map_append, h2, h2'], fun r hr => ?_⟩
    rcases List.mem_append.1 hr with hr | hr
    · exact h3 r hr
    · exact h3' r hr
  · intro dflt finest l _ q hqm _
    obtain ⟨z, hz, hzb⟩ := hq q hqm
    have hlt : ((s.index.length : ℤ) + 2) * |z| < 2 ^ 52 := by nlinarith
    obtain ⟨attrs, ha, hf⟩ := disaggOneF_small hr.indexInv hr.weightInv hN cm dflt finest l q hz hlt
    rcases disaggOne_whole hr.indexInv hr.weightInv hN cm dflt finest l q hz hlt with ⟨x, y, h1, h2, h3⟩ | h
    · refine .inl ⟨x, y, h1, h2, h3, ?_, ?_⟩
      · have e1 : x.map (·.2.1) = List.replicate x.length attrs := by
          rw [List.eq_replicate_iff]
          refine ⟨List.length_map _, fun a h => ?_⟩
          obtain ⟨r, hr, rfl⟩ := List.mem_map.1 h
          exact ha x h1 r hr
        have e2 : y.map (·.2.1) = List.replicate y.length attrs := by
          rw [List.eq_replicate_iff]
          refine ⟨List.length_map _, fun a h => ?_⟩
          obtain ⟨r, hr, rfl⟩ := List.mem_map.1 h
          exact (hf y h2 r hr).1
        have e3 := h3.1.length_eq
        rw [List.length_map, List.length_map] at e3
        rw [e1, e2, e3]
      · intro r hr
        obtain ⟨-, v, hv, hvz⟩ := hf y h2 r hr
        exact ⟨v, hv, hvz.trans hzb⟩
    · exact .inr h

theorem reader_small {s : Store} (hr : Reachable s) (hN : s.index.length + 2 ≤ 2 ^ 52) (cm : CaseMap) (sels : List Sel)
    (sumBy : List PyStr) {b : ℤ} (hb : ((s.index.length : ℤ) + 2) * b < 2 ^ 52)
    (hq : ∀ q ∈ s.quants, ∃ z : ℤ, q.value = z ∧ |z| ≤ b) :
    (∃ r f, s.reader cm sels true sumBy = .ok r ∧ s.readerF cm sels true sumBy = .ok f ∧ SameTotals b s r f) ∨
    ∃ e, s.reader cm sels true sumBy = .error e ∧ s.readerF cm sels true sumBy = .error e := by
  rcases hread : s.reader cm sels true sumBy with e | r
  · right
    refine ⟨e, rfl, ?_⟩
    unfold Store.reader at hread
    unfold Store.readerF
    simp only [bind, Except.bind] at hread ⊢
    rcases call_small hr hN cm sels hb hq with ⟨x, y, h1, _⟩ | ⟨e', h1, h2⟩
    · rw [h1] at hread; cases hread
    · rw [h1] at hread
      rw [h2]
      exact hread
  obtain ⟨hok, hrows⟩ := reader_ok hr hread
  obtain ⟨rows, hcall, rfl⟩ := reader_rows hread
  rcases call_small hr hN cm sels hb hq with ⟨x, y, h1, h2, h3, h4, h5⟩ | ⟨e', h1, _⟩
  swap
  · rw [hcall] at h1; cases h1
  rw [hcall] at h1
  cases h1
  left
  refine ⟨_, Reader.new (y.map fun d => (d.1, s.keepAttrs sumBy d.2.1, some d.2.2)), rfl, ?_, ?_⟩
  · unfold Store.readerF
    simp only [bind, Except.bind]
    rw [h2]
  have hattr : ∀ l : List (Nat × Attrs × ℚ), (Reader.new (l.map fun d => (d.1, s.keepAttrs sumBy d.2.1, some d.2.2))).attrData =
      distinct ((l.map (·.2.1)).map fun a => canonAttrs (s.keepAttrs sumBy a)) := by
    intro l
    unfold Reader.new
    dsimp only
    rw [List.map_map, List.map_map]
    rfl
  have hflat : ∀ l : List (Nat × Attrs × ℚ), l.flatMap (fun d => (s.keepAttrs sumBy d.2.1).map (·.1)) =
      (l.map (·.2.1)).flatMap fun a => (s.keepAttrs sumBy a).map (·.1) := fun l => by rw [List.flatMap_map]
  have hkeys : (Reader.new (rows.map fun d => (d.1, s.keepAttrs sumBy d.2.1, some d.2.2))).keys =
      (Reader.new (y.map fun d => (d.1, s.keepAttrs sumBy d.2.1, some d.2.2))).keys := by
    unfold Reader.new
    dsimp only
    rw [List.flatMap_map, List.flatMap_map, hflat, hflat, h4]
  have ham : ∀ (l : List (Nat × Attrs × ℚ)) (P : Attrs → Bool),
      amount ((Reader.new (l.map fun d => (d.1, s.keepAttrs sumBy d.2.1, some d.2.2))).rows.filter fun x => P x.attrs) =
        ((l.filter fun r => P (canonAttrs (s.keepAttrs sumBy r.2.1)) = true).map (·.2.2)).sum := by
    intro l P
    unfold Reader.new amount
    dsimp only
    rw [List.map_map, List.filter_map, List.map_map]
    congr 1
    show List.map (fun d : Nat × Attrs × ℚ => d.2.2) _ = List.map (fun d : Nat × Attrs × ℚ => d.2.2) _
    congr 1
    refine List.filter_congr fun d _ => ?_
    simp [Function.comp]
  refine ⟨hkeys, by rw [hattr, hattr, h4], hok, Reader.new_ok _, hrows, ?_, ?_⟩
  · intro x hx
    obtain ⟨d', hd', rfl⟩ := List.mem_map.1 hx
    obtain ⟨d, hd, rfl⟩ := List.mem_map.1 hd'
    obtain ⟨v, hv, hvb⟩ := h5 d hd
    refine ⟨?_, v, by dsimp only; rw [hv], hvb⟩
    have hm : (d.1, d.2.1) ∈ rows.map fun r => (r.1, r.2.1) := h3.1.mem_iff.1 (List.mem_map_of_mem hd)
    obtain ⟨e, he, hee⟩ := List.mem_map.1 hm
    have := (hrows ⟨e.1, canonAttrs (s.keepAttrs sumBy e.2.1), some e.2.2⟩ (by
      unfold Reader.new
      dsimp only
      rw [List.map_map]
      exact List.mem_map.2 ⟨e, he, rfl⟩)).1
    have e1 : e.1 = d.1 := (Prod.mk.inj hee).1
    rw [← e1]
    exact this
  · intro P
    rw [ham, ham]
    exact h3.2.2 fun a => P (canonAttrs (s.keepAttrs sumBy a)) = true

theorem along_whole {n : ℕ} {b : ℤ} (hn : n + 2 ≤ 2 ^ 52) (hb : ((n : ℤ) + 2) * b < 2 ^ 52) (cm : CaseMap) (ts : List Store)
    (ht : ∀ t ∈ ts, t.GoodTarget n) : ∀ (src : Store) (r f : Reader), Reachable src → SameTotals b src r f →
      (∃ r' f', Reader.along cm true src ts r = .ok r' ∧ Reader.alongF cm true src (withProps ts) f = .ok f' ∧
        SameTotals b (ts.getLastD src) r' f' ∧ ∀ P : Attrs → Bool,
          amount (f'.rows.filter fun x => P x.attrs) = amount (f.rows.filter fun x => P x.attrs)) ∨
      ∃ e, Reader.along cm true src ts r = .error e ∧ Reader.alongF cm true src (withProps ts) f = .error e := by
  induction ts with
  | nil =>
    intro src r f _ h
    exact .inl ⟨r, f, rfl, rfl, h, fun _ => rfl⟩
  | cons t ts ih =>
    intro src r f hs h
    have hg := ht t (by simp)
    have e : withProps (t :: ts) = (t, t.computedProp) :: withProps ts := rfl
    rw [e]
    unfold Reader.along Reader.alongF
    simp only [bind, Except.bind]
    rcases translate_whole hs hg (computedProp_near hg.tidy.reachable hg.refreshed hg.few) hn hb cm h with
      ⟨r', f', h1, h2, h3, h4⟩ | ⟨e, h1, h2⟩
    · rw [h1, h2]
      rw [List.getLastD_cons]
      rcases ih (fun x hx => ht x (by simp [hx])) t r' f' hg.tidy.reachable h3 with ⟨r2, f2, g1, g2, g3, g4⟩ | h
      · exact .inl ⟨r2, f2, g1, g2, g3, fun P => (g4 P).trans (h4 P)⟩
      · exact .inr h
    · rw [h1, h2]
      exact .inr ⟨e, rfl, rfl⟩

end Toron.Space
