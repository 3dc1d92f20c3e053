/-
C128: new columns leave the links of a legacy node as they are.
-/
import Verif.Spec.AddColumnLinks
import Verif.Props.LegacyLinkRoundtrip

namespace Toron.Legacy

open Toron.Selectors (PyStr)
open Toron.Space (IndexRec)

/-! ### The records -/

/-- A record with `k` new columns. -/
def widened (k : Nat) (r : IndexRec) : IndexRec := { r with labels := r.labels ++ List.replicate k ['-'] }

/-- Columns were added to the records. -/
def Widened (n n' : Node) : Prop := ∃ new, n'.cols = n.cols ++ new ∧ n'.index = n.index.map (widened new.length)

theorem Widened.refl (n : Node) : Widened n n := by
  refine ⟨[], (List.append_nil _).symm, ?_⟩
  have : widened ([] : List PyStr).length = id := by
    funext r
    show { r with labels := r.labels ++ [] } = r
    rw [List.append_nil]
  rw [this, List.map_id]

theorem Widened.trans {a b c : Node} (h1 : Widened a b) (h2 : Widened b c) : Widened a c := by
  obtain ⟨u, hu, hu'⟩ := h1
  obtain ⟨v, hv, hv'⟩ := h2
  refine ⟨u ++ v, by rw [hv, hu, List.append_assoc], ?_⟩
  rw [hv', hu', List.map_map]
  apply List.map_congr_left
  intro r _
  show { r with labels := (r.labels ++ List.replicate u.length ['-']) ++ List.replicate v.length ['-'] } = _
  unfold widened
  rw [List.append_assoc, ← List.replicate_add, List.length_append]

theorem SameData.widened {n n' : Node} (h : SameData n n') : Widened n n' := by
  obtain ⟨new, h1, h2⟩ := Widened.refl n
  unfold SameData at h
  exact ⟨new, by rw [h]; exact h1, by rw [h]; exact h2⟩

theorem addColumn_widened {n n' : Node} {c : PyStr} (h : n.addColumn c = .ok n') : Widened n n' := by
  unfold Node.addColumn at h
  obtain ⟨_, h⟩ := ite_ok h
  injection h with h
  subst h
  exact ⟨[c], rfl, rfl⟩

theorem addColumns_widened {n n' : Node} {names : List PyStr} (h : n.addColumns names = .ok n') : Widened n n' := by
  unfold Node.addColumns at h
  obtain ⟨names', _, h⟩ := bind_ok h
  obtain ⟨_, h⟩ := ite_ok h
  obtain ⟨cur, _, h⟩ := bind_ok h
  dsimp only at h
  split at h
  · injection h with h
    exact h ▸ Widened.refl n
  · obtain ⟨_, h⟩ := ite_ok h
    obtain ⟨n1, h1, h⟩ := bind_ok h
    obtain ⟨_, _, h⟩ := bind_ok h
    injection h with h
    exact h ▸ foldlM_inv (P := Widened n) (fun _ _ _ hp hs => hp.trans (addColumn_widened hs)) (Widened.refl n) h1

theorem addIndexColumns_widened {n n' : Node} {names : List PyStr} (h : n.addIndexColumns names = .ok n') : Widened n n' := by
  unfold Node.addIndexColumns at h
  obtain ⟨n1, h1, h⟩ := bind_ok h
  obtain ⟨n2, h2, h⟩ := bind_ok h
  exact (addColumns_widened h1).trans ((updateCategories_same h2).widened.trans (setStructure_same h).widened)

/-! ### The rows -/

theorem shownFrom_append (level : Option (List Byte)) (i : Nat) (a b : List PyStr) :
    shownFrom level i (a ++ b) = shownFrom level i a ++ shownFrom level (i + a.length) b := by
  induction a generalizing i with
  | nil => rfl
  | cons x xs ih =>
    rw [List.cons_append, shownFrom, shownFrom, ih, List.cons_append, List.length_cons]
    have : i + 1 + xs.length = i + (xs.length + 1) := by omega
    rw [this]

theorem shownFrom_replicate {level : Option (List Byte)} {i : Nat} {l : PyStr} {o : Option PyStr}
    (h : ∀ j, i ≤ j → shownLabel l level j = o) (k : Nat) : shownFrom level i (List.replicate k l) = List.replicate k o := by
  induction k generalizing i with
  | zero => rfl
  | succ k ih =>
    rw [List.replicate_succ, shownFrom, h i (le_refl _), ih (fun j hj => h j (by omega)), List.replicate_succ]

theorem shown_widened {labels : List PyStr} {level : Option (List Byte)} (k : Nat)
    (h : ∀ b, level = some b → (∃ i, i < labels.length ∧ ¬ Covers (some b) i) ∧ ∀ i, labels.length ≤ i → ¬ Covers (some b) i) :
    shownLabels (labels ++ List.replicate k ['-']) level = withNew k (shownLabels labels level) := by
  unfold shownLabels withNew
  rw [shownFrom_append, Nat.zero_add]
  congr 1
  apply shownFrom_replicate
  cases level with
  | none =>
    intro j _
    have hn : none ∉ shownFrom none 0 labels := by
      have := shownLabels_none labels
      unfold shownLabels at this
      rw [this]
      simp
    rw [if_neg hn]
    rfl
  | some b =>
    intro j hj
    obtain ⟨⟨i, hi, hc⟩, hrest⟩ := h b rfl
    have hn : none ∈ shownFrom (some b) 0 labels := by
      apply List.mem_iff_getElem?.2
      refine ⟨i, ?_⟩
      rw [shownFrom_get, Nat.zero_add, List.getElem?_eq_getElem hi, Option.map_some, shownLabel_not hc]
    rw [if_pos hn, shownLabel_not (hrest j hj)]

theorem withNew_injective (k : Nat) : Function.Injective (withNew k) := by
  intro a b h
  unfold withNew at h
  exact List.append_inj_left' h (by rw [List.length_replicate, List.length_replicate])

theorem leftJoin_map (k : Nat) (index : List IndexRec) (rels : List Kept) :
    leftJoin (index.map (widened k)) rels = (leftJoin index rels).map fun rm => (widened k rm.1, rm.2) := by
  unfold leftJoin
  rw [List.flatMap_map, List.map_flatMap]
  apply List.flatMap_congr
  intro r _
  show (match rels.filter fun m => m.index == r.id with
    | [] => [(widened k r, none)]
    | ms => ms.map fun m => (widened k r, some m)) = _
  cases rels.filter fun m => m.index == r.id with
  | nil => rfl
  | cons m ms =>
    show _ = List.map _ (List.map _ (m :: ms))
    rw [List.map_map]
    rfl

theorem mem_leftJoin {index : List IndexRec} {rels : List Kept} {rm : IndexRec × Option Kept} (h : rm ∈ leftJoin index rels) :
    rm.1 ∈ index ∧ ∀ m, rm.2 = some m → m ∈ rels := by
  unfold leftJoin at h
  obtain ⟨r, hr, h⟩ := List.mem_flatMap.1 h
  have hsub : ∀ m ∈ rels.filter fun m => m.index == r.id, m ∈ rels := fun m hm => (List.mem_filter.1 hm).1
  generalize rels.filter (fun m => m.index == r.id) = l at h hsub
  cases l with
  | nil =>
    rw [List.mem_singleton.1 h]
    exact ⟨hr, fun m e => by cases e⟩
  | cons x xs =>
    obtain ⟨m, hm, rfl⟩ := List.mem_map.1 h
    exact ⟨hr, fun m' e => by cases e; exact hsub m hm⟩

theorem groupKey_widened {width k : Nat} {index : List IndexRec} {rels : List Kept} (hlen : ∀ r ∈ index, r.labels.length = width)
    (hp : ProperLevels width rels) {rm : IndexRec × Option Kept} (h : rm ∈ leftJoin index rels) :
    groupKey (widened k rm.1, rm.2) = ((groupKey rm).1, withNew k (groupKey rm).2) := by
  obtain ⟨h1, h2⟩ := mem_leftJoin h
  unfold groupKey
  refine Prod.ext rfl ?_
  show shownLabels (rm.1.labels ++ List.replicate k ['-']) (rm.2.bind (·.level)) = _
  apply shown_widened
  intro b hb
  obtain ⟨m, hm, hl⟩ := Option.bind_eq_some_iff.1 hb
  rw [hlen _ h1]
  exact hp m (h2 m hm) b hl

theorem reconstructed_widened {width k : Nat} {index : List IndexRec} {rels : List Kept}
    (hlen : ∀ r ∈ index, r.labels.length = width) (hp : ProperLevels width rels) :
    reconstructed (index.map (widened k)) rels =
      (reconstructed index rels).map fun x => ⟨x.other, x.value, withNew k x.labels⟩ := by
  have hinj : Function.Injective fun p : Option Nat × List (Option PyStr) => (p.1, withNew k p.2) := by
    rintro ⟨a, b⟩ ⟨c, d⟩ h
    simp only [Prod.mk.injEq] at h
    rw [h.1, withNew_injective k h.2]
  have hkeys : ((leftJoin (index.map (widened k)) rels).map groupKey).dedup =
      (((leftJoin index rels).map groupKey).dedup).map fun p => (p.1, withNew k p.2) := by
    rw [← List.dedup_map_of_injective hinj, leftJoin_map, List.map_map, List.map_map]
    congr 1
    apply List.map_congr_left
    intro rm hrm
    exact groupKey_widened hlen hp hrm
  unfold reconstructed
  rw [hkeys, List.map_map, List.map_map]
  apply List.map_congr_left
  rintro ⟨o, ls⟩ _
  show LinkRow.mk o (sqlSum (((leftJoin (index.map (widened k)) rels).filter
    fun rm => groupKey rm = (o, withNew k ls)).map fun rm => rm.2.map (·.value))) (withNew k ls) =
    LinkRow.mk o (sqlSum (((leftJoin index rels).filter fun rm => groupKey rm = (o, ls)).map fun rm => rm.2.map (·.value)))
      (withNew k ls)
  congr 2
  rw [leftJoin_map, List.filter_map, List.map_map]
  have : (leftJoin index rels).filter ((fun rm => decide (groupKey rm = (o, withNew k ls))) ∘ fun rm => (widened k rm.1, rm.2)) =
      (leftJoin index rels).filter fun rm => groupKey rm = (o, ls) := by
    apply List.filter_congr
    intro rm hrm
    show decide (groupKey (widened k rm.1, rm.2) = (o, withNew k ls)) = _
    rw [groupKey_widened hlen hp hrm]
    apply decide_eq_decide.2
    constructor
    · intro h
      exact hinj (a₁ := groupKey rm) (a₂ := (o, ls)) h
    · intro h
      rw [h]
  rw [this]
  rfl

/-! ### The property -/

/-- **C128.** After columns are added, a link is read as before: the same rows with the same records of the other node and the
same values, in which the new columns are `-` if all labels of the row were given and nothing if not. -/
theorem C128_rows {n n' : Node} (hr : Reachable n) {names : List PyStr} (h : n.addIndexColumns names = .ok n')
    {rels : List Kept} (hp : ProperLevels n.cols.length rels) :
    ∃ new, n'.cols = n.cols ++ new ∧
      reconstructed n'.index rels =
        (reconstructed n.index rels).map fun x => ⟨x.other, x.value, withNew new.length x.labels⟩ := by
  obtain ⟨new, h1, h2⟩ := addIndexColumns_widened h
  refine ⟨new, h1, ?_⟩
  rw [h2]
  exact reconstructed_widened hr.inv.len hp

/-- **C128.** The levels are as good as before: columns can be added again. -/
theorem C128_again {n n' : Node} {names : List PyStr} (h : n.addIndexColumns names = .ok n')
    {rels : List Kept} (hp : ProperLevels n.cols.length rels) : ProperLevels n'.cols.length rels := by
  obtain ⟨new, h1, _⟩ := addIndexColumns_widened h
  intro m hm b hb
  obtain ⟨⟨i, hi, hc⟩, hrest⟩ := hp m hm b hb
  have : n'.cols.length = n.cols.length + new.length := by rw [h1, List.length_append]
  exact ⟨⟨i, by omega, hc⟩, fun j hj => hrest j (by omega)⟩

/-- If all columns are used, one record fits at most. -/
theorem fitting_all {n : Node} (hr : Reachable n) {header labels : List PyStr}
    (h : ∀ c ∈ n.cols, ∃ cl ∈ header.zip labels, cl.2 ≠ [] ∧ cl.1 = c) : (n.fitting header labels).length ≤ 1 := by
  have heq : ∀ r ∈ n.fitting header labels, ∀ s ∈ n.fitting header labels, r = s := by
    intro r h1 s h2
    unfold Node.fitting at h1 h2
    rw [List.mem_filter, decide_eq_true_iff] at h1 h2
    apply List.inj_on_of_nodup_map hr.inv.labels h1.1 h2.1
    have l1 := hr.inv.len r h1.1
    have l2 := hr.inv.len s h2.1
    apply List.ext_getElem (by rw [l1, l2])
    intro i hi1 hi2
    have hi : i < n.cols.length := by omega
    obtain ⟨⟨c, l⟩, hcl, hne, he⟩ := h n.cols[i] (List.getElem_mem hi)
    have he : c = n.cols[i] := he
    have z1 := (lookup_zip_iff hr.colsNodup c l).2 (h1.2 _ hcl hne)
    have z2 := (lookup_zip_iff hr.colsNodup c l).2 (h2.2 _ hcl hne)
    have y1 : (n.cols[i], r.labels[i]) ∈ n.cols.zip r.labels := by
      apply List.mem_of_getElem? (i := i)
      rw [List.getElem?_zip_eq_some]
      exact ⟨List.getElem?_eq_getElem hi, List.getElem?_eq_getElem hi1⟩
    have y2 : (n.cols[i], s.labels[i]) ∈ n.cols.zip s.labels := by
      apply List.mem_of_getElem? (i := i)
      rw [List.getElem?_zip_eq_some]
      exact ⟨List.getElem?_eq_getElem hi, List.getElem?_eq_getElem hi2⟩
    have y1 := (lookup_zip_iff hr.colsNodup _ _).2 y1
    have y2 := (lookup_zip_iff hr.colsNodup _ _).2 y2
    rw [he] at z1 z2
    rw [z1, Option.some_inj] at y1
    rw [z2, Option.some_inj] at y2
    rw [← y1, ← y2]
  have hn : (n.fitting header labels).Nodup := (hr.inv.ids.of_map _).filter _
  rcases hf : n.fitting header labels with _ | ⟨x, _ | ⟨y, ys⟩⟩
  · simp
  · simp
  · rw [hf] at heq hn
    have := heq x (by simp) y (by simp)
    rw [this] at hn
    simp at hn

/-- **C128.** The relations of a link that was made from a table have such levels. -/
theorem C128_made {n : Node} (hr : Reachable n) {a : MatchArgs} {header : List PyStr} {rows : List TableRow} {src dst : List Found}
    (hd : n.findMatches a header (rows.map fun r => (r.run, r.right)) = .ok dst) (link : Nat) :
    ProperLevels n.cols.length (storedRelations link rows src dst) := by
  intro m hm b hb
  unfold storedRelations at hm
  rcases List.mem_append.1 hm with hm | hm
  · obtain ⟨_, _, _, _, f, hf, _, _, _, _, hlev⟩ := mem_keptRelations (List.mem_filter.1 hm).1
    obtain ⟨l, _, h1 | ⟨w, k, all, _, _, h1, h2, _, _⟩⟩ := found_ok hd f hf
    · rw [hlev, h1.2.1] at hb
      cases hb
    · rw [hlev, h2, levelOf_eq, Option.map_some, Option.some_inj] at hb
      subst hb
      obtain ⟨hk, h2k, -⟩ := (fit_ambiguous hr).1 h1
      have hbit : ∀ i (hi : i < n.cols.length), Spec.bitAt (n.columnsUsed header l) i =
          decide (∃ cl ∈ header.zip l, cl.2 ≠ [] ∧ cl.1 = n.cols[i]) := by
        intro i hi
        unfold Spec.bitAt Node.columnsUsed
        rw [List.getD_eq_getElem?_getD, List.getElem?_map, List.getElem?_eq_getElem hi]
        rfl
      constructor
      · by_contra hall
        have : (n.fitting header l).length ≤ 1 := by
          apply fitting_all hr
          intro c hc
          obtain ⟨i, hi, rfl⟩ := List.getElem_of_mem hc
          by_contra hno
          apply hall
          refine ⟨i, hi, ?_⟩
          rw [covers_levelBytes, hbit i hi, decide_eq_true_iff]
          exact hno
        omega
      · intro i hi
        rw [covers_levelBytes]
        unfold Spec.bitAt
        rw [List.getD_eq_default _ _ (by unfold Node.columnsUsed; rw [List.length_map]; exact hi)]
        exact Bool.false_ne_true
  · rw [List.mem_singleton.1 hm] at hb
    cases hb

/-- **C128, in part.** With all labels shown, the rows are the same, and all new labels are `-`. Missing: the text that names
the columns that were not given. -/
theorem C128_reified_partial {n n' : Node} {names : List PyStr} (h : n.addIndexColumns names = .ok n')
    (rels : List Kept) :
    ∃ new, n'.cols = n.cols ++ new ∧
      ((reified n'.cols n'.index rels).map fun x => (x.other, x.value, x.labels)) =
        (reified n.cols n.index rels).map fun x => (x.other, x.value, x.labels ++ List.replicate new.length ['-']) := by
  obtain ⟨new, h1, h2⟩ := addIndexColumns_widened h
  refine ⟨new, h1, ?_⟩
  unfold reified
  rw [h2, leftJoin_map, List.map_map, List.map_map, List.map_map]
  rfl

theorem openColumns_append (bits : List Bool) (i : Nat) (a b : List PyStr) :
    Spec.openColumns bits i (a ++ b) = Spec.openColumns bits i a ++ Spec.openColumns bits (i + a.length) b := by
  induction a generalizing i with
  | nil => rfl
  | cons x xs ih =>
    rw [List.cons_append, Spec.openColumns, Spec.openColumns, ih, List.length_cons]
    have : i + 1 + xs.length = i + (xs.length + 1) := by omega
    rw [this]
    split <;> rfl

theorem openColumns_all {bits : List Bool} {i : Nat} (h : ∀ j, i ≤ j → Spec.bitAt bits j = false) (a : List PyStr) :
    Spec.openColumns bits i a = a := by
  induction a generalizing i with
  | nil => rfl
  | cons x xs ih =>
    rw [Spec.openColumns, h i (le_refl _), ih fun j hj => h j (by omega)]
    rfl

/-- **C128, in part.** The columns that are named as not given are those before and all new columns, as long as there are no
more than eight columns and the level has a column. -/
theorem C128_text_partial {n n' : Node} {names : List PyStr} (h : n.addIndexColumns names = .ok n') {rels : List Kept}
    (hp : ProperLevels n.cols.length rels) (h8 : n'.cols.length ≤ 8) {m : Kept} (hm : m ∈ rels) {b : List Byte}
    (hb : m.level = some b) (hc : ∃ i, Covers (some b) i) :
    ∃ new, n'.cols = n.cols ++ new ∧ Text.ambiguousFields b n'.cols = Text.ambiguousFields b n.cols ++ new := by
  obtain ⟨new, h1, _⟩ := addIndexColumns_widened h
  refine ⟨new, h1, ?_⟩
  have hlen : n'.cols.length = n.cols.length + new.length := by rw [h1, List.length_append]
  obtain ⟨i, hi⟩ := hc
  have hl : ∃ i, Spec.bitAt (BitFlags.ofBytes b).toBits i = true := ⟨i, by rw [bitAt_ofBytes]; exact hi b rfl⟩
  rw [Text.C51_up_to_eight_partial b n'.cols h8 hl, Text.C51_up_to_eight_partial b n.cols (by omega) hl, h1,
    openColumns_append, Nat.zero_add]
  congr 1
  apply openColumns_all
  intro j hj
  rw [bitAt_ofBytes]
  by_contra hne
  exact (hp m hm b hb).2 j hj fun b' e => by
    cases e
    exact Bool.not_eq_false _ ▸ hne

/-! ### Cases -/

namespace WidenDemo

/-- The node of the link, with one more column. -/
def wider : Option Node := (MapDemo.node.addIndexColumns [['z', 'o', 'n', 'e']]).toOption

/-- One relation to a place, and one to both places of a county that was given without them. -/
def rels : List Kept := [⟨1, 1, 3, 10, none⟩, ⟨1, 2, 1, 3, some [128]⟩, ⟨1, 2, 2, 4, some [128]⟩]

end WidenDemo

open WidenDemo in
/-- A column can be added, and the rows are as before, with one more label. -/
example : (wider.map fun m => (reconstructed m.index rels)) =
    some ((reconstructed MapDemo.node.index rels).map fun x => ⟨x.other, x.value, withNew 1 x.labels⟩) ∧
    ⟨some 2, some 7, [some ['x'], none]⟩ ∈ reconstructed MapDemo.node.index rels ∧
    (wider.map fun m => decide (⟨some 2, some 7, [some ['x'], none, none]⟩ ∈ reconstructed m.index rels)) = some true := by
  decide +kernel

open WidenDemo in
/-- The new column is named after the one that was not given. -/
example : (wider.map fun m => Text.ambiguousFields [128] m.cols) = some [['B'], ['z', 'o', 'n', 'e']] ∧
    Covers (some [128]) 0 := by
  refine ⟨by decide +kernel, fun b e => ?_⟩
  cases e
  decide +kernel

open RoundDemo in
/-- A link that was made from a table. -/
example : ProperLevels MapDemo.node.cols.length (storedRelations 1 rows src dst) :=
  C128_made MapDemo.node_reachable (a := MapDemo.args false) (header := MapDemo.header) (rows := rows) (by rfl) 1

namespace WidenDemo

/-- Seven columns. -/
def seven : List PyStr := [['k'], ['l'], ['m'], ['n'], ['o'], ['p'], ['q']]

/-- The node with nine columns. -/
def nine : Option Node := (MapDemo.node.addIndexColumns seven).toOption

end WidenDemo

open WidenDemo in
/-- **C128, violated.** The text of the columns that were not given does not name all new columns: the ninth column of a node is
left out, although no label was given for it. -/
theorem C128_violated_fields : ¬ ∀ (n n' : Node), Reachable n → ∀ (names : List PyStr), n.addIndexColumns names = .ok n' →
    ∀ (rels : List Kept), ProperLevels n.cols.length rels → ∀ x ∈ reified n'.cols n'.index rels, ∀ text, x.fields = some text →
      ∀ c ∈ names, c <:+: text := by
  intro hall
  have hn : nine.isSome = true := by decide +kernel
  obtain ⟨n', hn'⟩ := Option.isSome_iff_exists.1 hn
  have hok : MapDemo.node.addIndexColumns seven = .ok n' := by
    unfold nine at hn'
    cases h : MapDemo.node.addIndexColumns seven with
    | error e => rw [h] at hn'; cases hn'
    | ok m => rw [h] at hn'; exact congrArg _ (Option.some_inj.1 hn')
  have hp : ProperLevels MapDemo.node.cols.length [⟨1, 2, 1, 3, some [128]⟩] := by
    intro m hm b hb
    rw [List.mem_singleton.1 hm] at hb
    cases hb
    have hbits : ∀ i, 1 ≤ i → Spec.bitAt (bytesToBitstream [128]) i = false := by
      intro i hi
      unfold Spec.bitAt
      by_cases h8 : i < 8
      · revert i
        decide +kernel
      · rw [List.getD_eq_default _ _ (by rw [bytesToBitstream_length]; simpa using h8)]
    have hno : ∀ i, 1 ≤ i → ¬ Covers (some [128]) i := by
      intro i hi hc
      have := hc _ rfl
      rw [hbits i hi] at this
      cases this
    exact ⟨⟨1, by decide +kernel, hno 1 (le_refl _)⟩, fun i hi => hno i (le_trans (by decide +kernel) hi)⟩
  have hrow : (nine.map fun m => (reified m.cols m.index [⟨1, 2, 1, 3, some [128]⟩]).any fun x =>
      match x.fields with
      | some t => !decide (['q'] <:+: t)
      | none => false) = some true := by decide +kernel
  rw [hn', Option.map_some, Option.some_inj, List.any_eq_true] at hrow
  obtain ⟨x, hx, ht⟩ := hrow
  cases hf : x.fields with
  | none => rw [hf] at ht; cases ht
  | some t =>
    rw [hf] at ht
    have := hall _ _ MapDemo.node_reachable _ hok _ hp x hx t hf ['q'] (by decide)
    simp [this] at ht

end Toron.Legacy
