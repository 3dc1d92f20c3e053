/-
C104: translating by way of another dataspace, and back.
-/
import Verif.Spec.Detour
import Verif.Props.Region
import Verif.Props.MappingRoundtrip

namespace Toron.Space

open Toron.Selectors (PyStr Sel CaseMap asciiCase)

/-! ### Where the rows go -/

theorem parts_move {parts : List (ReaderRow × List ReaderRow)} (A B : ReaderRow → Bool)
    (h : ∀ p ∈ parts, amount p.2 = p.1.value.getD 0 ∧ ∀ x ∈ p.2, B x = A p.1) :
    amount ((parts.flatMap (·.2)).filter B) = amount ((parts.map (·.1)).filter A) := by
  induction parts with
  | nil => rfl
  | cons p ps ih =>
    obtain ⟨hsum, hat⟩ := h p (by simp)
    rw [List.flatMap_cons, List.map_cons, List.filter_append, amount_append,
      ih (fun q hq => h q (List.mem_cons_of_mem _ hq))]
    by_cases ha : A p.1 = true
    · rw [List.filter_cons_of_pos ha, List.filter_eq_self.2 (by
        intro x hx; rw [hat x hx]; exact ha), hsum]
      simp [amount]
    · rw [List.filter_cons_of_neg ha, List.filter_eq_nil_iff.2 (by
        intro x hx; rw [hat x hx]; exact ha)]
      simp [amount]

/-- Each row is split into rows that add up to it, at records it is sent to. -/
theorem translate_sends {src trg : Store} (hs : Reachable src) (ht : ReachableTidy trg) (hh : ReachableHashed trg)
    {r r' : Reader} (hr : r.Ok) (hrows : ∀ x ∈ r.rows, x.index ∈ src.ids) {cm : CaseMap} {quantize : Bool}
    (h : r.translate cm src trg quantize = .ok r') :
    ∃ parts : List (ReaderRow × List ReaderRow), parts.map (·.1) = r.rows ∧ r'.rows = parts.flatMap (·.2) ∧
      ∀ p ∈ parts, amount p.2 = p.1.value.getD 0 ∧ ∀ x ∈ p.2, x.attrs = p.1.attrs ∧
        (p.1.index = 0 ∧ x = p.1 ∨ p.1.index ≠ 0 ∧ src.Sends trg p.1.index x.index) := by
  obtain ⟨link, hl, parts, h1, h2, h3⟩ := C17_split hs ht hh hr hrows h
  refine ⟨parts, h1, h2, fun p hp => ?_⟩
  obtain ⟨hsp, ham, hat⟩ := h3 p hp
  refine ⟨ham, fun x hx => ⟨hat x hx, ?_⟩⟩
  unfold Store.splitBy at hsp
  by_cases hi : p.1.index = 0
  · rw [if_pos hi] at hsp
    rw [hsp, List.mem_singleton] at hx
    exact .inl ⟨hi, hx⟩
  · rw [if_neg hi] at hsp
    obtain ⟨ms, hperm, -, hall⟩ := hsp
    obtain ⟨m, hm, hmi, -⟩ := forall₂_mem_right hall hx
    have hp1 : p.1 ∈ r.rows := h1 ▸ List.mem_map_of_mem hp
    exact .inr ⟨hi, _, hl _ (hr.known _ hp1), m, hperm.mem_iff.1 hm, hmi.symm⟩

/-- A record of the source that has a value is sent somewhere. -/
theorem sends_some {src trg : Store} (ht : ReachableTidy trg) (hh : ReachableHashed trg) {l : Link}
    (hl : trg.currentLink src l) {i : Nat} (hi : i ∈ src.ids) (h0 : i ≠ 0) : ∃ j, src.Sends trg i j := by
  obtain ⟨hne, -⟩ := current_maps ht hh hl hi h0
  obtain ⟨m, hm⟩ := List.exists_mem_of_ne_nil _ hne
  exact ⟨m.index, l, hl, m, hm, rfl⟩

theorem sends_ids {src trg : Store} (ht : ReachableFk trg) {i j : Nat} (h : src.Sends trg i j) : j ∈ trg.ids := by
  obtain ⟨l, -, m, hm, rfl⟩ := h
  exact ht.indexRefs.2 m (List.mem_filter.1 hm).1

/-- The rows of a translated result are at records of the target. -/
theorem translate_ids {src trg : Store} (hs : Reachable src) (ht : ReachableFk trg) (hh : ReachableHashed trg)
    {r r' : Reader} (hr : r.Ok) (hrows : ∀ x ∈ r.rows, x.index ∈ src.ids) {cm : CaseMap} {quantize : Bool}
    (h : r.translate cm src trg quantize = .ok r') : ∀ x ∈ r'.rows, x.index ∈ trg.ids := by
  obtain ⟨parts, h1, h2, h3⟩ := translate_sends hs ht.tidy hh hr hrows h
  intro x hx
  rw [h2] at hx
  obtain ⟨p, hp, hx⟩ := List.mem_flatMap.1 hx
  rcases ((h3 p hp).2 x hx).2 with ⟨h0, rfl⟩ | ⟨-, hsend⟩
  · rw [h0]
    exact List.mem_map.2 ⟨_, ht.reachable.indexInv.undef, rfl⟩
  · exact sends_ids ht hsend

/-! ### C104 -/

/-- If everything that is sent from a record of the source ends up in one record of the target, the total of a
record of the target is that of the records of the source that end up in it, rounded or not. -/
theorem C104_aggregate {src trg : Store} (hs : Reachable src) (ht : ReachableTidy trg) (hh : ReachableHashed trg)
    {r r' : Reader} (hr : r.Ok) (hrows : ∀ x ∈ r.rows, x.index ∈ src.ids) {cm : CaseMap} {quantize : Bool}
    (h : r.translate cm src trg quantize = .ok r') {f : Nat → Nat} (h0 : f 0 = 0)
    (hf : ∀ i k, i ≠ 0 → src.Sends trg i k → k = f i) (k : Nat) (a : Attrs) :
    r'.amountAt k a = r.amountOf f k a := by
  obtain ⟨parts, h1, h2, h3⟩ := translate_sends hs ht hh hr hrows h
  unfold Reader.amountAt Reader.amountOf
  rw [h2, ← h1]
  refine parts_move _ _ fun p hp => ⟨(h3 p hp).1, fun x hx => ?_⟩
  obtain ⟨hat, hor⟩ := (h3 p hp).2 x hx
  rw [hat]
  rcases hor with ⟨hz, rfl⟩ | ⟨hz, hsend⟩
  · rw [hz, h0]
  · rw [hf _ _ hz hsend]

/-- By way of another dataspace: if all ways from a record of the source through the dataspace in between end up
in one record of the target, the total of a record of the target is that of the records of the source that end up
in it, whatever the shares on the way and whether or not the values are rounded on either leg. -/
theorem C104_detour {src mid trg : Store} (hs : Reachable src) (hm : ReachableFk mid) (hmh : ReachableHashed mid)
    (ht : ReachableTidy trg) (hth : ReachableHashed trg) {r r1 r2 : Reader} (hr : r.Ok)
    (hrows : ∀ x ∈ r.rows, x.index ∈ src.ids) {cm : CaseMap} {q1 q2 : Bool}
    (h1 : r.translate cm src mid q1 = .ok r1) (h2 : r1.translate cm mid trg q2 = .ok r2)
    {f : Nat → Nat} (h0 : f 0 = 0) (hf : ∀ i k, i ≠ 0 → src.SendsVia mid trg i k → k = f i) (k : Nat) (a : Attrs) :
    r2.amountAt k a = r.amountOf f k a := by
  classical
  obtain ⟨parts1, g1, g2, g3⟩ := translate_sends hs hm.tidy hmh hr hrows h1
  have hr1 := (hr.translate h1).1
  have hids := translate_ids hs hm hmh hr hrows h1
  obtain ⟨parts2, k1, k2, k3⟩ := translate_sends hm.reachable ht hth hr1 hids h2
  obtain ⟨link, hlink, -⟩ := C19_current hm.reachable hr1 h2
  -- where a row in between comes from
  have hfrom : ∀ x ∈ r1.rows, ∃ y ∈ r.rows, x.attrs = y.attrs ∧
      (y.index = 0 ∧ x = y ∨ y.index ≠ 0 ∧ src.Sends mid y.index x.index) := by
    intro x hx
    rw [g2] at hx
    obtain ⟨p, hp, hx⟩ := List.mem_flatMap.1 hx
    exact ⟨p.1, g1 ▸ List.mem_map_of_mem hp, (g3 p hp).2 x hx⟩
  -- where it goes to
  let goes : ReaderRow → Bool := fun x =>
    decide ((x.index = 0 ∧ k = 0 ∨ x.index ≠ 0 ∧ mid.Sends trg x.index k) ∧ x.attrs = a)
  have e2 : r2.amountAt k a = amount (r1.rows.filter goes) := by
    unfold Reader.amountAt
    rw [k2, ← k1]
    refine parts_move (A := goes) (B := _) fun p hp => ⟨(k3 p hp).1, fun x hx => ?_⟩
    obtain ⟨hat, hor⟩ := (k3 p hp).2 x hx
    have hp1 : p.1 ∈ r1.rows := k1 ▸ List.mem_map_of_mem hp
    dsimp only [goes]
    rw [decide_eq_decide, hat]
    refine and_congr ?_ Iff.rfl
    rcases hor with ⟨hz, rfl⟩ | ⟨hz, hsend⟩
    · rw [hz]
      constructor
      · exact fun h => .inl ⟨rfl, h.symm⟩
      · rintro (⟨-, h⟩ | ⟨h, -⟩)
        · exact h.symm
        · exact absurd rfl h
    · obtain ⟨y, -, -, hy⟩ := hfrom _ hp1
      rcases hy with ⟨hy0, he⟩ | ⟨hy0, hy⟩
      · rw [he] at hz; exact absurd hy0 hz
      constructor
      · rintro rfl
        exact .inr ⟨hz, hsend⟩
      · rintro (⟨h, -⟩ | ⟨-, h⟩)
        · exact absurd h hz
        · rw [hf _ _ hy0 ⟨_, hy, .inr ⟨hz, hsend⟩⟩, hf _ _ hy0 ⟨_, hy, .inr ⟨hz, h⟩⟩]
  rw [e2]
  unfold Reader.amountOf
  rw [g2, ← g1]
  refine parts_move (B := goes) (A := _) fun p hp => ⟨(g3 p hp).1, fun x hx => ?_⟩
  have hx1 : x ∈ r1.rows := g2 ▸ List.mem_flatMap.2 ⟨p, hp, hx⟩
  obtain ⟨hat, hor⟩ := (g3 p hp).2 x hx
  dsimp only [goes]
  rw [decide_eq_decide, hat]
  refine and_congr ?_ Iff.rfl
  rcases hor with ⟨hz, rfl⟩ | ⟨hz, hsend⟩
  · rw [hz, h0]
    constructor
    · rintro (⟨-, h⟩ | ⟨h, -⟩)
      · exact h.symm
      · exact absurd rfl h
    · exact fun h => .inl ⟨rfl, h.symm⟩
  · by_cases hxz : x.index = 0
    · have := hf _ 0 hz ⟨_, hsend, .inl ⟨hxz, rfl⟩⟩
      rw [← this]
      constructor
      · rintro (⟨-, h⟩ | ⟨h, -⟩)
        · exact h.symm
        · exact absurd hxz h
      · exact fun h => .inl ⟨hxz, h.symm⟩
    · constructor
      · rintro (⟨h, -⟩ | ⟨-, h⟩)
        · exact absurd h hxz
        · exact (hf _ _ hz ⟨_, hsend, .inr ⟨hxz, h⟩⟩).symm
      · intro h
        obtain ⟨j, hj⟩ := sends_some ht hth (hlink _ (hr1.known _ hx1)) (hids x hx1) hxz
        have := hf _ _ hz ⟨_, hsend, .inr ⟨hxz, hj⟩⟩
        rw [h] at this
        exact .inr ⟨hxz, this ▸ hj⟩

/-- There and back: if whatever a record is split into is mapped back to that record alone, translating a result to
the other dataspace and back leaves the total of every record and attribute set as it was, rounded or not. -/
theorem C104_round_trip {src mid : Store} (hs : ReachableTidy src) (hsh : ReachableHashed src) (hm : ReachableFk mid)
    (hmh : ReachableHashed mid) {r r1 r2 : Reader} (hr : r.Ok) (hrows : ∀ x ∈ r.rows, x.index ∈ src.ids)
    {cm : CaseMap} {q1 q2 : Bool} (h1 : r.translate cm src mid q1 = .ok r1) (h2 : r1.translate cm mid src q2 = .ok r2)
    (hback : ∀ i j, i ≠ 0 → src.Sends mid i j → j ≠ 0 ∧ ∀ k, mid.Sends src j k → k = i) (i : Nat) (a : Attrs) :
    r2.amountAt i a = r.amountAt i a :=
  C104_detour hs.reachable hm hmh hs hsh hr hrows h1 h2 (f := id) rfl (by
    rintro i k hi ⟨j, hj, ⟨hj0, -⟩ | ⟨-, hk⟩⟩
    · exact absurd hj0 (hback i j hi hj).1
    · exact (hback i j hi hj).2 k hk) i a

/-- The detour does not matter: if the direct link and all ways through the dataspace in between take a record of
the source to the same record of the target, both translations have the same total for every record and attribute
set. -/
theorem C104_same {src mid trg : Store} (hs : Reachable src) (hm : ReachableFk mid) (hmh : ReachableHashed mid)
    (ht : ReachableTidy trg) (hth : ReachableHashed trg) {r r1 r2 rd : Reader} (hr : r.Ok)
    (hrows : ∀ x ∈ r.rows, x.index ∈ src.ids) {cm : CaseMap} {q1 q2 q3 : Bool}
    (h1 : r.translate cm src mid q1 = .ok r1) (h2 : r1.translate cm mid trg q2 = .ok r2)
    (hd : r.translate cm src trg q3 = .ok rd) {f : Nat → Nat} (h0 : f 0 = 0)
    (hf : ∀ i k, i ≠ 0 → src.SendsVia mid trg i k ∨ src.Sends trg i k → k = f i) (k : Nat) (a : Attrs) :
    r2.amountAt k a = rd.amountAt k a := by
  rw [C104_detour hs hm hmh ht hth hr hrows h1 h2 h0 (fun i k hi h => hf i k hi (.inl h)),
    C104_aggregate hs ht hth hr hrows hd h0 fun i k hi h => hf i k hi (.inr h)]

/-- One record for one: if each record of the source is mapped to a single record of the target, by one mapping, the
rows of a result are the same after a translation, at these records and with their values unchanged, rounded or
not. -/
theorem C104_one_to_one {src trg : Store} (hs : Reachable src) (ht : ReachableTidy trg) (hh : ReachableHashed trg)
    {r r' : Reader} (hr : r.Ok) (hrows : ∀ x ∈ r.rows, x.index ∈ src.ids) {cm : CaseMap} {quantize : Bool}
    (h : r.translate cm src trg quantize = .ok r') {f : Nat → Nat} (h0 : f 0 = 0)
    (hf : ∀ l, trg.currentLink src l → ∀ i ∈ src.ids, i ≠ 0 →
      (trg.mapsFrom l.id (i : Int)).map (·.index) = [f i]) :
    r'.rows = r.rows.map fun x => { x with index := f x.index } := by
  obtain ⟨link, hl, parts, h1, h2, h3⟩ := C17_split hs ht hh hr hrows h
  rw [h2, ← h1]
  have key : ∀ p ∈ parts, p.2 = [{ p.1 with index := f p.1.index }] := by
    intro p hp
    have hp1 : p.1 ∈ r.rows := h1 ▸ List.mem_map_of_mem hp
    obtain ⟨hsp, ham, hat⟩ := h3 p hp
    unfold Store.splitBy at hsp
    by_cases hi : p.1.index = 0
    · rw [if_pos hi] at hsp
      rw [hsp, hi, h0, ← hi]
    · rw [if_neg hi] at hsp
      obtain ⟨ms, hperm, -, hall⟩ := hsp
      have hmi := hf _ (hl _ (hr.known _ hp1)) _ (hrows _ hp1) hi
      have hmp := (hperm.map (·.index)).trans (List.Perm.of_eq hmi)
      rw [List.perm_singleton] at hmp
      obtain ⟨m, rfl, hm⟩ : ∃ m, ms = [m] ∧ m.index = f p.1.index := by
        rcases ms with _ | ⟨m, _ | ⟨_, _⟩⟩
        · simp at hmp
        · exact ⟨m, rfl, by simpa using hmp⟩
        · simp at hmp
      rcases hp2 : p.2 with _ | ⟨x, _ | ⟨_, _⟩⟩
      · rw [hp2] at hall; cases hall
      · rw [hp2] at hall ham
        obtain ⟨e1, e2, v, q, w, e3, -, e4, -⟩ := (List.forall₂_cons.1 hall).1
        rw [e3] at ham
        simp only [amount, List.map_cons, List.map_nil, List.sum_cons, List.sum_nil, add_zero, e4,
          Option.getD_some] at ham
        obtain ⟨xi, xa, xv⟩ := x
        simp only at e1 e2 e4
        rw [e1, e2, e4, ham, hm, ← e3]
      · rw [hp2] at hall
        cases (List.forall₂_cons.1 hall).2
  clear h1 h2 h3
  induction parts with
  | nil => rfl
  | cons p ps ih =>
    rw [List.flatMap_cons, List.map_cons, List.map_cons, key p (by simp),
      ih fun q hq => key q (List.mem_cons_of_mem _ hq)]
    rfl

/-! The hypotheses can be met: a dataspace with two records, the finer one of `Demo.store` with a link in each
direction, and a third dataspace with links from both. -/

def Demo.backOps : List Op := Demo.srcOps ++
  [.addLink ['u'] ['l'] none [] none none false,
   .insertMappings2 ['u'] none
     [⟨1, 5, 1, [], some [0x80#8]⟩, ⟨2, 6, 1, [], some [0x80#8]⟩, ⟨3, 7, 2, [], some [0x80#8]⟩]]

/-- The source of the link in `Demo.store`, now with a link from it. -/
def Demo.back : Store := run Demo.backOps (Store.new Demo.other)

def Demo.topOps : List Op :=
  [.addIndexColumns [Demo.colA],
   .insertIndex none [] .abort .abort [⟨none, some [Demo.lx], []⟩],
   .addLink ['u'] ['l'] none [] none none false,
   .insertMappings2 ['u'] none
     [⟨1, 5, 1, [], some [0x80#8]⟩, ⟨2, 6, 1, [], some [0x80#8]⟩, ⟨3, 7, 1, [], some [0x80#8]⟩],
   .addLink Demo.other ['l'] none [] none none false,
   .insertMappings2 Demo.other none [⟨1, 5, 1, [], some [0x80#8]⟩, ⟨2, 6, 1, [], some [0x80#8]⟩]]

/-- A dataspace with one record, which has all others. -/
def Demo.top : Store := run Demo.topOps (Store.new ['t'])

/-- `Demo.translated`, back again. -/
def Demo.returned : Reader where
  attrData := [Demo.attrM, Demo.attrN]
  rows := [⟨1, Demo.attrM, some 25⟩, ⟨1, Demo.attrM, some 75⟩, ⟨2, Demo.attrN, some 7⟩, ⟨0, Demo.attrM, some 2⟩]
  keys := [['c']]

theorem Demo.there_eq :
    (Demo.reader.translate asciiCase Demo.back Demo.store true).toOption = some Demo.translated := by decide +kernel

theorem Demo.returned_eq :
    (Demo.translated.translate asciiCase Demo.store Demo.back true).toOption = some Demo.returned := by decide +kernel

theorem Demo.back_fk : ReachableFk Demo.back := ⟨Demo.other, Demo.backOps, by simp [Demo.backOps, Demo.srcOps], rfl⟩

theorem Demo.back_hashed : ReachableHashed Demo.back :=
  ⟨Demo.other, Demo.backOps, by simp [Demo.backOps, Demo.srcOps, Op.setsHash], rfl⟩

theorem Demo.top_fk : ReachableFk Demo.top := ⟨['t'], Demo.topOps, by simp [Demo.topOps], rfl⟩

theorem Demo.top_hashed : ReachableHashed Demo.top :=
  ⟨['t'], Demo.topOps, by simp [Demo.topOps, Op.setsHash], rfl⟩

theorem sends_maps {src trg : Store} {i j : Nat} (h : src.Sends trg i j) :
    ∃ m ∈ trg.maps, m.other = (i : Int) ∧ m.index = j := by
  obtain ⟨l, -, m, hm, rfl⟩ := h
  obtain ⟨h1, h2⟩ := List.mem_filter.1 hm
  exact ⟨m, h1, (of_decide_eq_true h2).2, rfl⟩

theorem Demo.reader_good : Demo.reader.Ok ∧ ∀ x ∈ Demo.reader.rows, x.index ∈ Demo.src.ids :=
  have h := reader_ok Demo.src_reachable (ok_of_toOption Demo.reader_eq)
  ⟨h.1, fun x hx => (h.2 x hx).1⟩

-- the hypotheses of C104_round_trip: record 1 is split into 1 and 2 on the way and put together again
example : ∀ i a, Demo.returned.amountAt i a = Demo.reader.amountAt i a := by
  have hid : ∀ x ∈ Demo.reader.rows, x.index ∈ Demo.back.ids := by decide +kernel
  refine C104_round_trip Demo.back_fk.tidy Demo.back_hashed Demo.reachableFk Demo.reachableHashed Demo.reader_good.1 hid
    (ok_of_toOption Demo.there_eq) (ok_of_toOption Demo.returned_eq) ?_
  intro i j hi hj
  obtain ⟨m, hm, hmo, rfl⟩ := sends_maps hj
  have h1 : ∀ m ∈ Demo.store.maps, m.index ≠ 0 ∧
      ∀ m' ∈ Demo.back.maps, m'.other = (m.index : Int) → (m'.index : Int) = m.other := by decide +kernel
  refine ⟨(h1 m hm).1, fun k hk => ?_⟩
  obtain ⟨m', hm', ho', rfl⟩ := sends_maps hk
  have := (h1 m hm).2 m' hm' ho'
  omega

-- the hypotheses of C104_detour, C104_aggregate and C104_same
example : ∃ r2 rd, Demo.translated.translate asciiCase Demo.store Demo.top true = .ok r2 ∧
    Demo.reader.translate asciiCase Demo.src Demo.top true = .ok rd ∧
    (∀ k a, r2.amountAt k a = rd.amountAt k a) ∧ rd.rows.length = 3 ∧ r2.rows.length = 4 := by
  have e2 : ((Demo.translated.translate asciiCase Demo.store Demo.top true).toOption.map (·.rows.length)) = some 4 := by
    decide +kernel
  have e3 : ((Demo.reader.translate asciiCase Demo.src Demo.top true).toOption.map (·.rows.length)) = some 3 := by
    decide +kernel
  rcases h2 : Demo.translated.translate asciiCase Demo.store Demo.top true with e | r2
  · rw [h2] at e2; cases e2
  rcases h3 : Demo.reader.translate asciiCase Demo.src Demo.top true with e | rd
  · rw [h3] at e3; cases e3
  rw [h2] at e2
  rw [h3] at e3
  refine ⟨r2, rd, rfl, rfl, ?_, Option.some.inj e3, Option.some.inj e2⟩
  have hone : ∀ m ∈ Demo.top.maps, m.index = 1 := by decide +kernel
  refine C104_same Demo.src_reachable Demo.reachableFk Demo.reachableHashed Demo.top_fk.tidy Demo.top_hashed
    Demo.reader_good.1 Demo.reader_good.2 (ok_of_toOption Demo.translated_eq) h2 h3
    (f := fun i => if i = 0 then 0 else 1) rfl ?_
  have hst : ∀ m ∈ Demo.store.maps, m.index ≠ 0 := by decide +kernel
  rintro i k hi (⟨j, hj, ⟨rfl, -⟩ | ⟨-, hk⟩⟩ | hk)
  · obtain ⟨m, hm, -, he⟩ := sends_maps hj
    exact absurd he (hst m hm)
  · obtain ⟨m, hm, -, rfl⟩ := sends_maps hk
    rw [hone m hm, if_neg hi]
  · obtain ⟨m, hm, -, rfl⟩ := sends_maps hk
    rw [hone m hm, if_neg hi]

-- the hypotheses of C104_one_to_one
example : Demo.returned.rows = Demo.translated.rows.map fun x => { x with index := (x.index + 1) / 2 } := by
  have hid : ∀ x ∈ Demo.translated.rows, x.index ∈ Demo.store.ids := by decide +kernel
  have hok := (Demo.reader_good.1.translate (ok_of_toOption Demo.translated_eq)).1
  have hl : ∀ l ∈ Demo.back.links, ∀ i ∈ Demo.store.ids, i ≠ 0 →
      (Demo.back.mapsFrom l.id (i : Int)).map (·.index) = [(i + 1) / 2] := by decide +kernel
  exact C104_one_to_one Demo.reachable Demo.back_fk.tidy Demo.back_hashed hok hid (ok_of_toOption Demo.returned_eq)
    (f := fun i => (i + 1) / 2) rfl fun l h => hl l (findLinksByRef_mem h.1)

end Toron.Space
