/-
C97: results add up. What is read from data that was put together is what is read from the parts, put together.
-/
import Verif.Lemmas.Store.Adding
import Verif.Props.SameContent

namespace Toron.Space

open Toron.Selectors (PyStr Sel CaseMap asciiCase)

/-! ### Adding amounts -/

/-- Loading two tables into one dataspace (summing where both have an amount), or each into its own copy: if the first
succeeds then so do the others, and the amounts in the first are those in the copies added. -/
theorem C97_load {b : Store} (hb : ReachableFk b) (hq : b.quants = []) (hne : [] ∉ b.regAttrs.getD []) (al ap : Bool)
    (rows rows' : List QuantRow) {s t u : Store} (hs : s = (step (.insertQuantities2 al ap .sum rows) b).1)
    (ht : t = (step (.insertQuantities2 al ap .sum rows') b).1)
    (hu : u = (step (.insertQuantities2 al ap .sum (rows ++ rows')) b).1)
    (hok : (step (.insertQuantities2 al ap .sum (rows ++ rows')) b).2 = .ok ()) :
    (step (.insertQuantities2 al ap .sum rows) b).2 = .ok () ∧ (step (.insertQuantities2 al ap .sum rows') b).2 = .ok () ∧
      SameSetting s t ∧ SameSetting s u ∧ Adds s t u := by
  have setting : ∀ {x y : Store} {l l' : List QuantRow}, x = (step (.insertQuantities2 al ap .sum l) b).1 →
      y = (step (.insertQuantities2 al ap .sum l') b).1 → SameSetting x y := by
    intro x y l l' hx hy
    obtain ⟨a1, a2, a3, a4, a5, a6, a7, -⟩ := load_setting hb.reachable al ap .sum l hx
    obtain ⟨b1, b2, b3, b4, b5, b6, b7, -⟩ := load_setting hb.reachable al ap .sum l' hy
    refine ⟨b1.trans a1.symm, b2.trans a2.symm, b3.trans a3.symm, b4.trans a4.symm, b5.trans a5.symm, b6.trans a6.symm,
      fun n i x => ?_⟩
    unfold Store.HasWeight
    rw [a4, a7, b4, b7]
  have hat : b.regAttrs.getD [] ≠ [] := by
    intro hat
    have : insertQuantities2 al ap .sum (rows ++ rows') b = .error (.toronError "no attributes registered") := by
      unfold insertQuantities2
      simp only [bind, StateT.bind, get, getThe, MonadStateOf.get, StateT.get, pure, Except.pure, Except.bind]
      rw [if_pos hat]
      rfl
    have h2 : step (.insertQuantities2 al ap .sum (rows ++ rows')) b = (b, .error (.toronError "no attributes registered")) := by
      show runTx (insertQuantities2 al ap .sum (rows ++ rows')) b = _
      unfold runTx
      rw [this]
    rw [h2] at hok
    cases hok
  have hold : ∀ l a, b.QuantityIs l a none := by
    intro l a x
    unfold Store.HasQuantity
    rw [hq]
    simp
  have C := fun l => C32_quantities hb.reachable (C32_anchored hb) hat hne (al := al) (ap := ap) (p := .sum) (by simp) l hold
  have allows : ∀ o l, Policy.sum.Allows o l := fun o l h => by cases h
  have hacc : ∀ row ∈ rows ++ rows', b.Accepts al ap row := by
    by_contra hc
    exact ((C (rows ++ rows')).2 fun h => hc h.1).1 hok
  obtain ⟨-, q3⟩ := (C (rows ++ rows')).1 ⟨hacc, fun _ _ => allows _ _⟩
  obtain ⟨e1, q1⟩ := (C rows).1 ⟨fun r hr => hacc r (by simp [hr]), fun _ _ => allows _ _⟩
  obtain ⟨e2, q2⟩ := (C rows').1 ⟨fun r hr => hacc r (by simp [hr]), fun _ _ => allows _ _⟩
  rw [← hs] at q1
  rw [← ht] at q2
  rw [← hu] at q3
  refine ⟨e1, e2, setting hs ht, setting hs hu, fun l a x y z hx hy hz => ?_⟩
  have amount : ∀ {w : Store} {vs : List ℚ} {v : ℚ}, w.QuantityIs l a (Policy.sum.after none vs) → w.AmountIs l a v → v = vs.sum := by
    intro w vs v hw hv
    unfold Policy.after at hw
    dsimp only at hw
    by_cases hn : vs = []
    · rw [if_pos ⟨rfl, hn⟩] at hw
      rcases hv with hv | ⟨rfl, -⟩
      · cases (hw v).2 hv
      · rw [hn]; rfl
    · rw [if_neg fun h => hn h.2] at hw
      rcases hv with hv | ⟨-, hv⟩
      · have := (hw v).2 hv
        simpa using this.symm
      · exact absurd ((hw _).1 rfl) (hv _)
  have happ : b.quantitiesFor (rows ++ rows') l a = b.quantitiesFor rows l a ++ b.quantitiesFor rows' l a := by
    unfold Store.quantitiesFor
    rw [List.filter_append, List.map_append]
  rw [amount (q1 l a) hx, amount (q2 l a) hy, amount (q3 l a) hz, happ, List.sum_append]

/-- If the amounts of a dataspace are those of two others added, then so is everything that is read from it: for every
condition on records and attributes the sum of the rows is the sum of the two sums. The reading must succeed, and not be
restricted to whole numbers. -/
theorem C97_read_partial {s t u : Store} (hs : Reachable s) (ht : Reachable t) (hu : Reachable u) (hgs : s.Grouped)
    (hgt : t.Grouped) (hgu : u.Grouped) (hst : SameSetting s t) (hsu : SameSetting s u) (hwf : s.SelectorsWF)
    (hadd : Adds s t u) (cm : CaseMap) {sels : List Sel} (hsel : ∀ x ∈ sels, x.WF) (sumBy : List PyStr) {rs rt ru : Reader}
    (h1 : s.reader cm sels false sumBy = .ok rs) (h2 : t.reader cm sels false sumBy = .ok rt)
    (h3 : u.reader cm sels false sumBy = .ok ru) (P : Nat → Attrs → Bool) :
    ru.sumOf P = rs.sumOf P + rt.sumOf P := by
  obtain ⟨ls, hls, es⟩ := reader_sumOf h1 P
  obtain ⟨lt, hlt, et⟩ := reader_sumOf h2 P
  obtain ⟨lu, hlu, eu⟩ := reader_sumOf h3 P
  rw [es, et, eu, hst.keepAttrs, hsu.keepAttrs]
  exact call_adds hs ht hu hst hsu hwf hgs hgt hgu hadd hsel hls hlt hlu _

/-- The same after a translation: results that add up, translated, add up. -/
theorem C97_translate_partial {rs rt ru : Reader} (h1 : rs.Ok) (h2 : rt.Ok) (h3 : ru.Ok)
    (h : ∀ P, ru.sumOf P = rs.sumOf P + rt.sumOf P) (cm : CaseMap) {src trg : Store} {xs xt xu : Reader}
    (hs : rs.translate cm src trg false = .ok xs) (ht : rt.translate cm src trg false = .ok xt)
    (hu : ru.translate cm src trg false = .ok xu) (P : Nat → Attrs → Bool) :
    xu.sumOf P = xs.sumOf P + xt.sumOf P := translate_adds h1 h2 h3 h hs ht hu P

/-! ### Putting data together -/

/-- If the quantities of a dataspace are those of two others, and these have no target in common, then a call succeeds
exactly if it succeeds for both, and its rows are the rows of the two: also when whole numbers are required. -/
theorem C97_unite {s t u : Store} (hs : Reachable s) (ht : Reachable t) (hu : Reachable u) (hgs : s.Grouped)
    (hgt : t.Grouped) (hgu : u.Grouped) (hst : SameSetting s t) (hsu : SameSetting s u) (hwf : s.SelectorsWF)
    (hun : Unites s t u) (cm : CaseMap) {sels : List Sel} (hsel : ∀ x ∈ sels, x.WF) (quantize : Bool) (sumBy : List PyStr) :
    ((∃ ru, u.reader cm sels quantize sumBy = .ok ru) ↔
      (∃ rs, s.reader cm sels quantize sumBy = .ok rs) ∧ ∃ rt, t.reader cm sels quantize sumBy = .ok rt) ∧
    ∀ {rs rt ru : Reader}, s.reader cm sels quantize sumBy = .ok rs → t.reader cm sels quantize sumBy = .ok rt →
      u.reader cm sels quantize sumBy = .ok ru → rs.Together rt ru := by
  have htu : SameSetting t u := hst.symm.trans hsu
  have hwft : t.SelectorsWF := hst.selectorsWF hwf
  refine ⟨⟨?_, ?_⟩, ?_⟩
  · rintro ⟨ru, h⟩
    obtain ⟨lu, hlu, -⟩ := reader_call.1 h
    obtain ⟨ls, hls⟩ := call_of_unites hs hu hsu hwf hgs hgu (fun l a x hx => (hun.either l a x).2 (.inl hx)) hsel hlu
    obtain ⟨lt, hlt⟩ := call_of_unites ht hu htu hwft hgt hgu (fun l a x hx => (hun.either l a x).2 (.inr hx)) hsel hlu
    exact ⟨⟨_, reader_call.2 ⟨ls, hls, rfl⟩⟩, ⟨_, reader_call.2 ⟨lt, hlt, rfl⟩⟩⟩
  · rintro ⟨⟨rs, h1⟩, rt, h2⟩
    obtain ⟨ls, hls, -⟩ := reader_call.1 h1
    obtain ⟨lt, hlt, -⟩ := reader_call.1 h2
    obtain ⟨lu, hlu, -⟩ := call_unites hs ht hu hst hsu hwf hgs hgt hgu hun hsel hls hlt
    exact ⟨_, reader_call.2 ⟨lu, hlu, rfl⟩⟩
  · intro rs rt ru h1 h2 h3
    obtain ⟨ls, hls, rfl⟩ := reader_call.1 h1
    obtain ⟨lt, hlt, rfl⟩ := reader_call.1 h2
    obtain ⟨lu, hlu, rfl⟩ := reader_call.1 h3
    obtain ⟨lu', hlu', hp⟩ := call_unites hs ht hu hst hsu hwf hgs hgt hgu hun hsel hls hlt
    rw [hlu] at hlu'
    cases hlu'
    rw [hst.keepAttrs, hsu.keepAttrs]
    refine new_together ?_
    rw [← List.map_append]
    exact hp.map _

/-- Results put together and then translated are the translated results put together, whole numbers or not. -/
theorem C97_translate_together {r1 r2 r : Reader} (h1 : r1.Ok) (h2 : r2.Ok) (h : r1.Together r2 r) (cm : CaseMap)
    {src trg : Store} {quantize : Bool} {x1 x2 : Reader} (hx1 : r1.translate cm src trg quantize = .ok x1)
    (hx2 : r2.translate cm src trg quantize = .ok x2) :
    ∃ x, r.translate cm src trg quantize = .ok x ∧ x1.Together x2 x := translate_together h1 h2 h hx1 hx2

/-! ### Selecting -/

/-- Reading with selectors gives the rows of the full result whose attributes match, if the dataspace has no domain. -/
theorem C97_select_partial {s : Store} (hs : Reachable s) (hg : s.Grouped) (hd : s.getDomain = []) (cm : CaseMap)
    {sels : List Sel} (hsel : ∀ x ∈ sels, x.WF) (hne : sels ≠ []) {quantize : Bool} {all : Reader}
    (h : s.reader cm [] quantize [] = .ok all) :
    ∃ r, s.reader cm sels quantize [] = .ok r ∧ r.rows.Perm (all.only (selected cm sels)).rows ∧
      ∀ a, a ∈ r.attrData ↔ a ∈ (all.only (selected cm sels)).attrData := by
  obtain ⟨r, h1, h2, h3⟩ := reader_select hs hg hd hsel hne h
  exact ⟨r, h1, h2, fun a => (h3 a).trans List.mem_filter.symm⟩

/-- Translating the rows with certain attributes gives those rows of the translated result that have these attributes. -/
theorem C97_translate_select {r x : Reader} (hr : r.Ok) (cm : CaseMap) {src trg : Store} {quantize : Bool}
    (hx : r.translate cm src trg quantize = .ok x) (P : Attrs → Bool) :
    (r.only P).translate cm src trg quantize = .ok (x.only P) := translate_only hr hx P

/-- So one may select while reading, before translating, or in the end: the rows are the same. -/
theorem C97_select_translate_partial {s : Store} (hs : Reachable s) (hg : s.Grouped) (hd : s.getDomain = []) (cm : CaseMap)
    {sels : List Sel} (hsel : ∀ x ∈ sels, x.WF) (hne : sels ≠ []) {quantize quantize' : Bool} {all x : Reader}
    (h : s.reader cm [] quantize [] = .ok all) {src trg : Store} (hx : all.translate cm src trg quantize' = .ok x) :
    ∃ r y, s.reader cm sels quantize [] = .ok r ∧ r.translate cm src trg quantize' = .ok y ∧
      y.rows.Perm (x.rows.filter fun row => selected cm sels row.attrs) := by
  obtain ⟨r, h1, h2, h3⟩ := C97_select_partial hs hg hd cm hsel hne h
  obtain ⟨y, hy, hp⟩ := translate_rows (only_ok (reader_isOk h) _) (reader_isOk h1) h2 (fun a ha => (h3 a).1 ha)
    (C97_translate_select (reader_isOk h) cm hx (selected cm sels))
  exact ⟨r, y, h1, hy, hp⟩

/-! ### Examples -/

namespace Demo

/-- The demo dataspace without quantities. -/
def bare : Store := run
  [.addIndexColumns [colA, colB],
   .addPartitionDef {colA},
   .addWeightGroup wname [] false none,
   .insertIndex none [wname] .abort .abort
     [⟨none, some [lx, l1], [some 3]⟩, ⟨none, some [lx, l2], [some 1]⟩, ⟨none, some [ly, l1], [some 5]⟩],
   .setRegisteredAttributes [['c']]] (Store.new ['u'])

theorem bare_fk : ReachableFk bare := ⟨['u'], _, by simp, rfl⟩

/-- Two tables that have an amount for the same target. -/
def tableOne : List QuantRow := [⟨none, [lx, []], [(['c'], ['m'])], 10⟩]
def tableTwo : List QuantRow := [⟨none, [lx, []], [(['c'], ['m'])], 10⟩, ⟨none, [ly, l1], [(['c'], ['n'])], 7⟩]

def withOne : Store := (step (.insertQuantities2 false false .sum tableOne) bare).1
def withTwo : Store := (step (.insertQuantities2 false false .sum tableTwo) bare).1
def withBoth : Store := (step (.insertQuantities2 false false .sum (tableOne ++ tableTwo)) bare).1

theorem withOne_fk : ReachableFk withOne := bare_fk.step _ (by simp)
theorem withTwo_fk : ReachableFk withTwo := bare_fk.step _ (by simp)
theorem withBoth_fk : ReachableFk withBoth := bare_fk.step _ (by simp)

/-- The hypotheses of `C97_load` and `C97_read_partial` are met. -/
theorem withBoth_adds : SameSetting withOne withTwo ∧ SameSetting withOne withBoth ∧ Adds withOne withTwo withBoth :=
  (C97_load bare_fk (by decide +kernel) (by decide +kernel) false false tableOne tableTwo rfl rfl rfl (by decide +kernel)).2.2

theorem withOne_selectors : withOne.SelectorsWF := by
  have h : withOne.wgroups.flatMap (·.selectors) = [] := by decide +kernel
  intro g hg x hx
  exact absurd (List.mem_flatMap.2 ⟨g, hg, hx⟩) (by rw [h]; simp)

end Demo

open Demo in
example {rs rt ru : Reader} (h1 : withOne.reader asciiCase [] false [] = .ok rs)
    (h2 : withTwo.reader asciiCase [] false [] = .ok rt) (h3 : withBoth.reader asciiCase [] false [] = .ok ru) :
    ru.sumOf (fun i _ => i == 1) = rs.sumOf (fun i _ => i == 1) + rt.sumOf fun i _ => i == 1 :=
  C97_read_partial withOne_fk.reachable withTwo_fk.reachable withBoth_fk.reachable (C90_grouped withOne_fk)
    (C90_grouped withTwo_fk) (C90_grouped withBoth_fk) withBoth_adds.1 withBoth_adds.2.1 withOne_selectors withBoth_adds.2.2
    asciiCase (by simp) [] h1 h2 h3 _

open Demo in
example : ((withOne.reader asciiCase [] false []).toOption.map fun r => r.sumOf fun i _ => i == 1) = some (15/2) ∧
    ((withTwo.reader asciiCase [] false []).toOption.map fun r => r.sumOf fun i _ => i == 1) = some (15/2) ∧
    ((withBoth.reader asciiCase [] false []).toOption.map fun r => r.sumOf fun i _ => i == 1) = some 15 := by
  decide +kernel

/-- With whole numbers results do not add up: ten is read as 8 and 2, and twenty as 15 and 5. -/
theorem C97_quantized_violated : ∃ s t u : Store, ReachableFk s ∧ ReachableFk t ∧ ReachableFk u ∧ SameSetting s t ∧
    SameSetting s u ∧ Adds s t u ∧ ∃ rs rt ru : Reader, s.reader asciiCase [] true [] = .ok rs ∧
      t.reader asciiCase [] true [] = .ok rt ∧ u.reader asciiCase [] true [] = .ok ru ∧
      ∃ P, ru.sumOf P ≠ rs.sumOf P + rt.sumOf P := by
  refine ⟨Demo.withOne, Demo.withTwo, Demo.withBoth, Demo.withOne_fk, Demo.withTwo_fk, Demo.withBoth_fk, Demo.withBoth_adds.1,
    Demo.withBoth_adds.2.1, Demo.withBoth_adds.2.2, ?_⟩
  have get : ∀ {s : Store}, (s.reader asciiCase [] true []).toBool = true →
      s.reader asciiCase [] true [] = .ok ((s.reader asciiCase [] true []).toOption.getD ⟨[], [], []⟩) := by
    intro s h
    cases hr : s.reader asciiCase [] true [] with
    | error e => rw [hr] at h; cases h
    | ok r => rfl
  refine ⟨_, _, _, get (by decide +kernel), get (by decide +kernel), get (by decide +kernel), fun i _ => i == 1, ?_⟩
  decide +kernel

namespace Demo

/-- A table that has no target in common with the first. -/
def tableThree : List QuantRow := [⟨none, [lx, l2], [(['c'], ['n'])], 4⟩]

def withThree : Store := (step (.insertQuantities2 false false .sum tableThree) bare).1
def withOneThree : Store := (step (.insertQuantities2 false false .sum (tableOne ++ tableThree)) bare).1

theorem withThree_fk : ReachableFk withThree := bare_fk.step _ (by simp)
theorem withOneThree_fk : ReachableFk withOneThree := bare_fk.step _ (by simp)

theorem withOneThree_setting : SameSetting withOne withThree ∧ SameSetting withOne withOneThree :=
  have h := (C97_load bare_fk (by decide +kernel) (by decide +kernel) false false tableOne tableThree rfl rfl rfl
    (by decide +kernel)).2.2
  ⟨h.1, h.2.1⟩

theorem withOneThree_unites : Unites withOne withThree withOneThree := by
  have a1 : withOne.quants = [⟨1, 1, 1, 10⟩] ∧ withOne.locs = [⟨1, [lx, []]⟩] ∧ withOne.agroups = [⟨1, [(['c'], ['m'])]⟩] := by
    decide +kernel
  have a2 : withThree.quants = [⟨1, 1, 1, 4⟩] ∧ withThree.locs = [⟨1, [lx, l2]⟩] ∧ withThree.agroups = [⟨1, [(['c'], ['n'])]⟩] := by
    decide +kernel
  have a3 : withOneThree.quants = [⟨1, 1, 1, 10⟩, ⟨2, 2, 2, 4⟩] ∧ withOneThree.locs = [⟨1, [lx, []]⟩, ⟨2, [lx, l2]⟩] ∧
      withOneThree.agroups = [⟨1, [(['c'], ['m'])]⟩, ⟨2, [(['c'], ['n'])]⟩] := by
    decide +kernel
  constructor
  · intro l a x
    unfold Store.HasQuantity
    rw [a1.1, a1.2.1, a1.2.2, a2.1, a2.2.1, a2.2.2, a3.1, a3.2.1, a3.2.2]
    simp
  · intro l a x y
    unfold Store.HasQuantity
    rw [a1.1, a1.2.1, a1.2.2, a2.1, a2.2.1, a2.2.2]
    simp
    rintro rfl rfl rfl h
    exact absurd h (by decide)

/-- The hypotheses of `C97_unite` are met, also with whole numbers. -/
example : (∃ ru, withOneThree.reader asciiCase [] true [] = .ok ru) ↔
    (∃ rs, withOne.reader asciiCase [] true [] = .ok rs) ∧ ∃ rt, withThree.reader asciiCase [] true [] = .ok rt :=
  (C97_unite withOne_fk.reachable withThree_fk.reachable withOneThree_fk.reachable (C90_grouped withOne_fk)
    (C90_grouped withThree_fk) (C90_grouped withOneThree_fk) withOneThree_setting.1 withOneThree_setting.2 withOne_selectors
    withOneThree_unites asciiCase (by simp) true []).1

example : (withOneThree.reader asciiCase [] true []).toBool = true := by decide +kernel

/-- The selector `[c="n"]`. -/
def isN : Sel := .simple ['c'] (some .eq) (some ['n']) false

/-- The hypotheses of `C97_select_partial` are met, and some rows are selected and others not. -/
example : withBoth.getDomain = [] ∧ (withBoth.reader asciiCase [] true []).toBool = true ∧ isN.WF ∧
    ((withBoth.reader asciiCase [] true []).toOption.map fun r => r.rows.length) = some 3 ∧
    ((withBoth.reader asciiCase [isN] true []).toOption.map fun r => r.rows) = some [⟨3, [(['c'], ['n'])], some 7⟩] := by
  refine ⟨by decide +kernel, by decide +kernel, ?_, by decide +kernel, by decide +kernel⟩
  unfold isN Sel.WF
  decide

/-- A dataspace with the domain `d`. -/
def inDomain : Store := (step (.setDomain ['d']) withBoth).1

/-- The selector `[domain="d"]`. -/
def isD : Sel := .simple ['d', 'o', 'm', 'a', 'i', 'n'] (some .eq) (some ['d']) false

end Demo

/-- With a domain the claim is false: all rows of the full result carry the attribute `domain="d"`, but the selector
`[domain="d"]` selects none of them. -/
theorem C97_select_domain_violated : ∃ (s : Store) (sel : Sel) (all r : Reader), ReachableFk s ∧ sel.WF ∧
    s.reader asciiCase [] true [] = .ok all ∧ s.reader asciiCase [sel] true [] = .ok r ∧ all.rows ≠ [] ∧
    (∀ x ∈ all.rows, selected asciiCase [sel] x.attrs = true) ∧ r.rows = [] := by
  have get : ∀ {s : Store} {sels : List Sel}, (s.reader asciiCase sels true []).toBool = true →
      s.reader asciiCase sels true [] = .ok ((s.reader asciiCase sels true []).toOption.getD ⟨[], [], []⟩) := by
    intro s sels h
    cases hr : s.reader asciiCase sels true [] with
    | error e => rw [hr] at h; cases h
    | ok r => rfl
  refine ⟨Demo.inDomain, Demo.isD, _, _, Demo.withBoth_fk.step _ (by simp), ?_, get (by decide +kernel), get (by decide +kernel),
    by decide +kernel, by decide +kernel, by decide +kernel⟩
  unfold Demo.isD Sel.WF
  decide

/-- The hypotheses of the theorems about translations are met: a result twice gives twice the translated amounts. -/
example : Demo.reader.Ok ∧ Demo.reader.translate asciiCase Demo.src Demo.store false = .ok Demo.translated ∧
    (∃ x, ({ Demo.reader with rows := Demo.reader.rows ++ Demo.reader.rows } : Reader).translate asciiCase Demo.src Demo.store
      false = .ok x ∧ Demo.translated.Together Demo.translated x) ∧
    (Demo.reader.only fun a => a == [(['c'], ['m'])]).translate asciiCase Demo.src Demo.store false =
      .ok (Demo.translated.only fun a => a == [(['c'], ['m'])]) := by
  have key : ∀ {r x : Reader} {src trg : Store} (P : Attrs → Bool), r.Ok → r.translate asciiCase src trg false = .ok x →
      (∃ x', ({ r with rows := r.rows ++ r.rows } : Reader).translate asciiCase src trg false = .ok x' ∧ x.Together x x') ∧
        (r.only P).translate asciiCase src trg false = .ok (x.only P) := fun {r _ _ _} P hk ht =>
    ⟨C97_translate_together (r := { r with rows := r.rows ++ r.rows }) hk hk ⟨.refl _, fun a => (or_self_iff).symm⟩ asciiCase
      ht ht, C97_translate_select hk asciiCase ht P⟩
  have hk := (reader_ok Demo.src_reachable (ok_of_toOption Demo.reader_eq)).1
  have ht := ok_of_toOption Demo.translated_eq
  exact ⟨hk, ht, key _ hk ht⟩

end Toron.Space
