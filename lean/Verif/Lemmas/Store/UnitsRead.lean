/-
Calls, histories, reading and translation in other units.
-/
import Verif.Lemmas.Store.UnitsOps

namespace Toron.Space

open Toron.Selectors (PyStr Sel CaseMap getGreatestUniqueSpecificity)

section
variable {u : Units} {s : Store}

theorem runTx_units {m m' : M Unit} (h : SimAt u s id m m') :
    runTx m' (s.inUnits u) = ((runTx m s).1.inUnits u, (runTx m s).2) := by
  unfold SimAt at h
  unfold runTx
  rw [h]
  cases m s with
  | error e => rfl
  | ok r =>
    obtain ⟨_, s1⟩ := r
    dsimp only [Except.map]
    rw [fkOk_units]
    by_cases hf : fkOk s1
    · rw [if_pos hf, if_pos hf]
    · rw [if_neg hf, if_neg hf]

theorem runAuto_units : ∀ {ms ms' : List (M Unit)}, List.Forall₂ (fun m m' => ∀ s, SimAt u s id m m') ms ms' → ∀ (s : Store),
    runAuto ms' (s.inUnits u) = ((runAuto ms s).1.inUnits u, (runAuto ms s).2)
  | _, _, .nil, s => rfl
  | _, _, .cons (a := m) (b := m') (l₁ := ms) (l₂ := ms') h hs, s => by
    rw [runAuto, runAuto, runTx_units (h s)]
    cases hr : runTx m s with
    | mk s1 r =>
      cases r with
      | error e => rfl
      | ok x => exact runAuto_units hs s1

theorem forall₂_map_units {ε : Type} (R : M Unit → M Unit → Prop) (f : ε → M Unit) (l : List ε) (h : ∀ e, R (f e) (f e)) :
    List.Forall₂ R (l.map f) (l.map f) := by
  induction l with
  | nil => exact .nil
  | cons a l ih => exact .cons (h a) ih

theorem reifyMappings_units (r : PyStr) (n : Option PyStr) (cs : List (PyStr × PyStr)) :
    reifyMappings r n cs (s.inUnits u) = ((reifyMappings r n cs s).1.inUnits u, (reifyMappings r n cs s).2) := by
  unfold reifyMappings
  rw [show (s.inUnits u).links = s.links from rfl]
  cases getLink s.links r n with
  | error e => rfl
  | ok l =>
    refine runAuto_units ?_ s
    unfold reifySteps
    dsimp only
    rw [show (s.inUnits u).cols.length = s.cols.length from rfl]
    set full := fullLevel s.cols.length
    have hc : (if cs = [] then (s.inUnits u).maps.filter fun m => m.link == l.id
        else ((s.inUnits u).filterByLabel cs).flatMap fun r => (s.inUnits u).maps.filter fun m =>
          m.link == l.id && m.index == r.id && coveredBy (s.inUnits u).cols cs m.level) =
        (if cs = [] then s.maps.filter fun m => m.link == l.id
        else (s.filterByLabel cs).flatMap fun r => s.maps.filter fun m =>
          m.link == l.id && m.index == r.id && coveredBy s.cols cs m.level).map (·.inUnits u) := by
      by_cases h : cs = []
      · rw [if_pos h, if_pos h]
        exact filter_units _ _ fun _ => rfl
      · rw [if_neg h, if_neg h, List.map_flatMap]
        congr 1
        funext r
        exact filter_units _ _ fun _ => rfl
    rw [hc, filter_units _ _ (by intro w; rfl), List.map_map]
    generalize List.filter _ _ = l
    induction l with
    | nil => exact .nil
    | cons a l ih => exact .cons (fun s => mappingUpdate_sim { a with level := full }) ih

theorem deleteUnmatchedQuantities_units : deleteUnmatchedQuantities (s.inUnits u) =
    ((deleteUnmatchedQuantities s).1.inUnits u, (deleteUnmatchedQuantities s).2) := by
  unfold deleteUnmatchedQuantities
  rw [show (s.inUnits u).nonmatchingLocs = s.nonmatchingLocs from rfl,
    runAuto_units (forall₂_map_units _ _ _ fun l s1 => locDelete_sim l.id) s]
  cases hr : runAuto (s.nonmatchingLocs.map fun l => locDelete l.id) s with
  | mk s1 r =>
    cases r with
    | error e => rfl
    | ok x =>
      dsimp only
      rw [unusedAgs_units]
      exact runAuto_units (forall₂_map_units _ _ _ fun l s1 => agDelete_sim l.id) s1

/-- One call in other units. -/
theorem step_units (op : Op) : step (op.inUnits u) (s.inUnits u) = ((step op s).1.inUnits u, (step op s).2) := by
  cases op with
  | addIndexColumns n => exact runTx_units (addIndexColumns_sim n)
  | renameIndexColumns m => exact runTx_units (renameIndexColumns_sim m)
  | dropIndexColumns n => exact runTx_units (dropIndexColumns_sim n)
  | addPartitionDefs d => exact runTx_units (.bind' (addPartitionDefs_sim d) fun _ _ _ => rebuildStructure_sim)
  | addPartitionDef d => exact runTx_units (.bind' (addPartitionDef_sim d) fun _ _ _ => rebuildStructure_sim)
  | dropPartitionDefs d => exact runTx_units (opDropPartitionDefs_sim d)
  | setRegisteredAttributes a => exact runTx_units (setRegisteredAttributes_sim a)
  | changeAttributeOrder a o => exact runTx_units (changeAttributeOrder_sim a o)
  | changeLabelOrder l o => exact runTx_units (changeLabelOrder_sim l o)
  | setDomain d => exact runTx_units (m := setDomain d) (m' := setDomain d) (SimAt.modify (u := u) (s := s) rfl)
  | insertIndex w wc pl pw r => exact runTx_units (insertIndex_sim w wc pl pw r)
  | updateIndex m r => exact runTx_units (updateIndex_sim m r)
  | deleteIndex t => exact runTx_units (deleteIndex_sim t)
  | setDefaultWeightGroup g => exact runTx_units (m := setDefaultWeightGroup g) (m' := setDefaultWeightGroup g) (SimAt.modify (u := u) (s := s) rfl)
  | addWeightGroup n s c d => exact runTx_units (addWeightGroup_sim n s c d)
  | editWeightGroup n m s c => exact runTx_units (editWeightGroup_sim n m s c)
  | dropWeightGroup n => exact runTx_units (dropWeightGroup_sim n)
  | insertWeights n p r => exact runTx_units (insertWeights_sim n p r)
  | updateWeights n r => exact runTx_units (updateWeights_sim n r)
  | deleteWeights n t => exact runTx_units (deleteWeights_sim n t)
  | addLink o n h s d oh c => exact runTx_units (addLink_sim o n h s d oh c)
  | editLink r n c => exact runTx_units (editLink_sim r n c)
  | dropLink r n => exact runTx_units (dropLink_sim r n)
  | insertMappings2 r n rows => exact runTx_units (insertMappings2_sim r n rows)
  | insertMappings r n c rows => exact runTx_units (insertMappings_sim r n c rows)
  | updateMappings r n c rows => exact runTx_units (updateMappings_sim r n c rows)
  | deleteMappings r n c t =>
    cases t with
    | rows rs => exact runTx_units (deleteMappings_sim r n c (.rows rs))
    | criteria cs => exact runTx_units (deleteMappings_sim r n c (.criteria cs))
  | reifyMappings r n cs => exact reifyMappings_units r n cs
  | insertQuantities2 al ap p rows => exact runTx_units (insertQuantities2_sim al ap p rows)
  | insertQuantities a rows => exact runTx_units (insertQuantities_sim a rows)
  | deleteQuantitiesWithoutIndex => exact runTx_units deleteQuantitiesWithoutIndex_sim
  | deleteUnmatchedQuantities => exact deleteUnmatchedQuantities_units
  | reopen => rfl

theorem run_units (ops : List Op) : ∀ (s : Store), run (ops.map (·.inUnits u)) (s.inUnits u) = (run ops s).inUnits u := by
  induction ops with
  | nil => intro s; rfl
  | cons op ops ih =>
    intro s
    show run _ (step (op.inUnits u) (s.inUnits u)).1 = (run ops (step op s).1).inUnits u
    rw [step_units, ih]

theorem outcomes_units (ops : List Op) : ∀ (s : Store),
    outcomes (ops.map (·.inUnits u)) (s.inUnits u) = outcomes ops s := by
  induction ops with
  | nil => intro s; rfl
  | cons op ops ih =>
    intro s
    show (step (op.inUnits u) (s.inUnits u)).2 :: outcomes _ (step (op.inUnits u) (s.inUnits u)).1 = _
    rw [step_units, ih]
    rfl

/-! ### Reading -/

theorem groupWeight_units {c : ℚ} (w : Nat → Option ℚ) : ∀ (ids : List Nat),
    groupWeight (fun i => (w i).map (c * ·)) ids = (groupWeight w ids).map (c * ·)
  | [] => by simp [groupWeight, Except.map]
  | i :: is => by
    rw [groupWeight, groupWeight]
    cases w i with
    | some x =>
      show Except.map (c * x + ·) (groupWeight (fun i => (w i).map (c * ·)) is) = _
      rw [groupWeight_units w is]
      cases groupWeight w is with
      | error e => rfl
      | ok g => simp [Except.map, mul_add]
    | none =>
      show (if i ≠ 0 then _ else groupWeight (fun i => (w i).map (c * ·)) is) = _
      dsimp only
      by_cases h : i ≠ 0
      · rw [if_pos h, if_pos h]; rfl
      · rw [if_neg h, if_neg h, groupWeight_units w is]

theorem disaggregateValue_units {c a : ℚ} (hc : c ≠ 0) (v : ℚ) (ids : List Nat) (w : Nat → Option ℚ) :
    disaggregateValue (a * v) ids (fun i => (w i).map (c * ·)) =
      (disaggregateValue v ids w).map (List.map fun p => (p.1, a * p.2)) := by
  unfold disaggregateValue
  rw [groupWeight_units]
  cases groupWeight w ids with
  | error e => rfl
  | ok g =>
    show (if c * g ≠ 0 then _ else _) = Except.map _ (if g ≠ 0 then _ else _)
    have h0 : c * g ≠ 0 ↔ g ≠ 0 := by simp [hc]
    by_cases hg : g ≠ 0
    · rw [if_pos hg, if_pos (h0.2 hg)]
      show Except.ok _ = Except.ok _
      rw [List.map_map]
      congr 1
      refine List.map_congr_left fun i _ => ?_
      dsimp only [Function.comp]
      cases w i with
      | none => simp
      | some x =>
        dsimp only [Option.map]
        rw [mul_div_mul_left _ _ hc, mul_assoc]
    · rw [if_neg hg, if_neg (fun h => hg (h0.1 h))]
      by_cases h1 : ids.length > 1
      · rw [if_pos h1, if_pos h1]
        by_cases h2 : 0 ∉ ids
        · rw [if_pos h2, if_pos h2]
          show Except.ok _ = Except.ok _
          rw [List.map_map]
          congr 1
          refine List.map_congr_left fun i _ => ?_
          dsimp only [Function.comp]
          rw [mul_assoc]
        · rw [if_neg h2, if_neg h2]
          show Except.ok _ = Except.ok _
          rw [List.map_map]
          congr 1
          refine List.map_congr_left fun i _ => ?_
          dsimp only [Function.comp]
          by_cases hi : i = 0
          · rw [if_pos hi, if_pos hi]; simp
          · rw [if_neg hi, if_neg hi, mul_assoc]
      · rw [if_neg h1, if_neg h1]
        cases ids with
        | nil => rfl
        | cons i is => cases is <;> rfl

theorem weightOf_units (g : Nat) : (s.inUnits u).weightOf g = fun i => (s.weightOf g i).map (u.weight * ·) := by
  funext i
  unfold Store.weightOf
  rw [findWeight_units]
  cases s.findWeight g i <;> rfl

theorem flatMapE_units {α α' β β' : Type} (f : α → Except Err (List β)) (f' : α' → Except Err (List β')) (h : α → α')
    (k : β → β') (l : List α) (hf : ∀ x ∈ l, f' (h x) = (f x).map (List.map k)) :
    flatMapE f' (l.map h) = (flatMapE f l).map (List.map k) := by
  induction l with
  | nil => rfl
  | cons a l ih =>
    rw [List.map_cons, flatMapE, flatMapE, hf a (by simp), ih fun x hx => hf x (by simp [hx])]
    cases f a with
    | error e => rfl
    | ok x =>
      cases flatMapE f l with
      | error e => rfl
      | ok y =>
        show Except.ok _ = Except.ok _
        rw [List.map_append]

theorem disaggOne_units (cm : CaseMap) (d : Nat) (fin : Bool) (q : Bool) (hq : q = true → u.amount = 1) (l : LocRec)
    (x : Quant) : (s.inUnits u).disaggOne cm d fin q l (x.inUnits u) =
      (s.disaggOne cm d fin q l x).map (List.map fun p => (p.1, p.2.1, u.amount * p.2.2)) := by
  unfold Store.disaggOne
  dsimp only
  rw [show (s.inUnits u).matchingIds l.labels = s.matchingIds l.labels from rfl]
  cases hm : s.matchingIds l.labels with
  | nil => rfl
  | cons i is =>
    dsimp only
    rw [show (s.inUnits u).getAttrs (x.inUnits u).ag = s.getAttrs x.ag from rfl]
    cases s.getAttrs x.ag with
    | error e => rfl
    | ok a =>
      show (if fin = true then _ else _) = Except.map _ (if fin = true then _ else _)
      by_cases hf : fin = true
      · rw [if_pos hf, if_pos hf]; rfl
      rw [if_neg hf, if_neg hf]
      rw [show (s.inUnits u).withDomain a = s.withDomain a from rfl, show (s.inUnits u).selectorDict = s.selectorDict from rfl]
      cases getGreatestUniqueSpecificity cm (s.withDomain a) s.selectorDict d with
      | error e => rfl
      | ok g =>
        show (do
          let parts ← disaggregateValue (u.amount * x.value) (i :: is) ((s.inUnits u).weightOf g)
          let parts ← if q then quantizeValues parts (u.amount * x.value) else .ok parts
          .ok (parts.map fun p => (p.1, s.withDomain a, p.2))) = Except.map _ (do
          let parts ← disaggregateValue x.value (i :: is) (s.weightOf g)
          let parts ← if q then quantizeValues parts x.value else .ok parts
          .ok (parts.map fun p => (p.1, s.withDomain a, p.2)))
        rw [weightOf_units, disaggregateValue_units u.weight_pos.ne']
        cases disaggregateValue x.value (i :: is) (s.weightOf g) with
        | error e => rfl
        | ok parts =>
          cases q with
          | false =>
            show Except.ok _ = Except.ok _
            rw [List.map_map, List.map_map]
            rfl
          | true =>
            rw [hq rfl]
            simp only [one_mul, Except.map, List.map_id']
            simp only [if_true]
            cases hz : quantizeValues parts x.value <;> simp only [bind, Except.bind, hz]

theorem call_units (cm : CaseMap) (sel : List Sel) (q : Bool) (hq : q = true → u.amount = 1) :
    (s.inUnits u).call cm sel q = (s.call cm sel q).map (List.map fun p => (p.1, p.2.1, u.amount * p.2.2)) := by
  unfold Store.call
  rw [show (s.inUnits u).attributeFilter cm sel = s.attributeFilter cm sel from rfl]
  cases s.attributeFilter cm sel with
  | error e => rfl
  | ok flt =>
    show (do
      let _ ← (s.inUnits u).getDefaultWG
      (s.inUnits u).disaggregate cm flt q) = Except.map _ (do
      let _ ← s.getDefaultWG
      s.disaggregate cm flt q)
    rw [show (s.inUnits u).getDefaultWG = s.getDefaultWG from rfl]
    cases hd : s.getDefaultWG with
    | error e => rfl
    | ok d =>
      show (s.inUnits u).disaggregate cm flt q = Except.map _ (s.disaggregate cm flt q)
      unfold Store.disaggregate
      rw [show (s.inUnits u).getDefaultWG = s.getDefaultWG from rfl, hd]
      show (if (!d.complete) = true then _ else _) = Except.map _ (if (!d.complete) = true then _ else _)
      by_cases hc : (!d.complete) = true
      · rw [if_pos hc, if_pos hc]; rfl
      rw [if_neg hc, if_neg hc, show (s.inUnits u).structsSorted = s.structsSorted from rfl]
      cases s.structsSorted with
      | nil => rfl
      | cons first rest =>
        dsimp only
        have := flatMapE_units (fun st : StructRec =>
          flatMapE (fun lq => s.disaggOne cm d.id (granEq st.gran first.gran) q lq.1 lq.2)
            ((s.quantsByBits st.bits).filter fun lq => match flt with
              | none => true
              | some ids => ids.contains lq.2.ag)) (fun st : StructRec =>
          flatMapE (fun lq => (s.inUnits u).disaggOne cm d.id (granEq st.gran first.gran) q lq.1 lq.2)
            (((s.inUnits u).quantsByBits st.bits).filter fun lq => match flt with
              | none => true
              | some ids => ids.contains lq.2.ag)) id (fun p => (p.1, p.2.1, u.amount * p.2.2)) (first :: rest) ?_
        · rw [List.map_id] at this
          exact this
        intro st _
        dsimp only [id]
        rw [quantsByBits_units, List.filter_map]
        exact flatMapE_units _ _ _ _ _ fun lq _ => disaggOne_units cm d.id _ q hq lq.1 lq.2

theorem reader_units (cm : CaseMap) (sel : List Sel) (q : Bool) (hq : q = true → u.amount = 1) (sumBy : List PyStr) :
    (s.inUnits u).reader cm sel q sumBy = (s.reader cm sel q sumBy).map (Reader.inUnits u) := by
  unfold Store.reader
  rw [call_units cm sel q hq]
  cases s.call cm sel q with
  | error e => rfl
  | ok data =>
    show Except.ok _ = Except.ok _
    congr 1
    unfold Reader.new Reader.inUnits
    simp only [List.map_map, List.flatMap_map]
    rfl

theorem translateRow_units (l : Nat) (row : ReaderRow) (q : Bool) (a : ℚ) (hq : q = true → a = 1) :
    (s.inUnits u).translateRow l q { row with value := row.value.map (a * ·) } =
      (s.translateRow l q row).map (List.map fun x => { x with value := x.value.map (a * ·) }) := by
  unfold Store.translateRow
  dsimp only
  by_cases h0 : row.index = 0
  · rw [if_pos h0, if_pos h0]; rfl
  rw [if_neg h0, if_neg h0, findMaps_units, flatMapE_units (scaleBy row.value) (scaleBy (row.value.map (a * ·)))
    (fun m => m.inUnits u) (fun p => (p.1, a * p.2)) _ ?_]
  · cases flatMapE (scaleBy row.value) (s.findMaps l row.index) with
    | error e => rfl
    | ok items =>
      cases q with
      | false =>
        show Except.ok _ = Except.ok _
        rw [List.map_map, List.map_map]
        rfl
      | true =>
        rw [hq rfl]
        cases row.value with
        | none => rfl
        | some v =>
          show (do
            let items ← quantizeValues (items.map fun p => (p.1, 1 * p.2)) (1 * v)
            Except.ok (items.map fun x => (⟨x.1, row.attrs, some x.2⟩ : ReaderRow))) = Except.map _ (do
            let items ← quantizeValues items v
            Except.ok (items.map fun x => (⟨x.1, row.attrs, some x.2⟩ : ReaderRow)))
          simp only [one_mul, List.map_id']
          cases quantizeValues items v with
          | error e => rfl
          | ok p =>
            show Except.ok _ = Except.ok _
            simp
  · intro m _
    unfold scaleBy
    cases row.value with
    | none => rfl
    | some v =>
      rw [show (m.inUnits u).prop = m.prop from rfl]
      cases m.prop with
      | none => rfl
      | some p =>
        show Except.ok _ = Except.ok _
        simp only [List.map_cons, List.map_nil, mul_assoc]
        rfl

theorem translate_units (r : Reader) (ur us ut : Units) (cm : CaseMap) (src trg : Store) (q : Bool)
    (hq : q = true → ur.amount = 1) : (r.inUnits ur).translate cm (src.inUnits us) (trg.inUnits ut) q =
      (r.translate cm src trg q).map (Reader.inUnits ur) := by
  unfold Reader.translate
  rw [show (trg.inUnits ut).linkChooser (src.inUnits us).uid ((src.inUnits us).indexHash.map Int.ofNat) =
    trg.linkChooser src.uid (src.indexHash.map Int.ofNat) from rfl]
  cases trg.linkChooser src.uid (src.indexHash.map Int.ofNat) with
  | error e => rfl
  | ok ch =>
    show (do
      let links ← flatMapE (fun a => do
        let l ← getGreatestUniqueSpecificity cm a ch.2 ch.1
        Except.ok [(a, l)]) r.attrData
      let rows ← flatMapE (fun row : ReaderRow =>
        match lookupLink links row.attrs with
        | some l => (trg.inUnits ut).translateRow l q row
        | none => .ok []) (r.inUnits ur).rows
      Except.ok { (r.inUnits ur) with rows := rows }) = Except.map _ (do
      let links ← flatMapE (fun a => do
        let l ← getGreatestUniqueSpecificity cm a ch.2 ch.1
        Except.ok [(a, l)]) r.attrData
      let rows ← flatMapE (fun row : ReaderRow =>
        match lookupLink links row.attrs with
        | some l => trg.translateRow l q row
        | none => .ok []) r.rows
      Except.ok { r with rows := rows })
    cases flatMapE (fun a => do
        let l ← getGreatestUniqueSpecificity cm a ch.2 ch.1
        Except.ok [(a, l)]) r.attrData with
    | error e => rfl
    | ok links =>
      show (do
        let rows ← flatMapE (fun row : ReaderRow =>
          match lookupLink links row.attrs with
          | some l => (trg.inUnits ut).translateRow l q row
          | none => .ok []) (r.rows.map fun x => { x with value := x.value.map (ur.amount * ·) })
        Except.ok { (r.inUnits ur) with rows := rows }) = Except.map _ (do
        let rows ← flatMapE (fun row : ReaderRow =>
          match lookupLink links row.attrs with
          | some l => trg.translateRow l q row
          | none => .ok []) r.rows
        Except.ok { r with rows := rows })
      have hf := flatMapE_units (fun row : ReaderRow =>
          match lookupLink links row.attrs with
          | some l => trg.translateRow l q row
          | none => .ok []) (fun row : ReaderRow =>
          match lookupLink links row.attrs with
          | some l => (trg.inUnits ut).translateRow l q row
          | none => .ok [])
          (fun x : ReaderRow => (⟨x.index, x.attrs, x.value.map (ur.amount * ·)⟩ : ReaderRow))
          (fun x : ReaderRow => (⟨x.index, x.attrs, x.value.map (ur.amount * ·)⟩ : ReaderRow)) r.rows ?_
      · rw [hf]
        cases flatMapE (fun row : ReaderRow =>
          match lookupLink links row.attrs with
          | some l => trg.translateRow l q row
          | none => .ok []) r.rows <;> rfl
      · intro row _
        dsimp only
        cases lookupLink links row.attrs with
        | none => rfl
        | some l => exact translateRow_units l row q ur.amount hq

theorem sqlSum_units (c : ℚ) (vs : List (Option ℚ)) : sqlSum (vs.map (Option.map (c * ·))) = (sqlSum vs).map (c * ·) := by
  unfold sqlSum
  have : (vs.map (Option.map (c * ·))).filterMap id = (vs.filterMap id).map (c * ·) := by
    rw [List.filterMap_map, List.map_filterMap]
    congr 1
  rw [this]
  cases vs.filterMap id with
  | nil => rfl
  | cons x xs =>
    show some _ = some _
    rw [sum_units c (x :: xs) id (c * ·) fun _ => rfl, List.map_id]

theorem output_units (r : Reader) : (r.inUnits u).output s =
    (r.output s).map (List.map fun x => (x.1, x.2.1, x.2.2.map (u.amount * ·))) := by
  unfold Reader.output
  have hk : ((r.inUnits u).rows.map fun x => (x.index, x.attrs)) = r.rows.map fun x => (x.index, x.attrs) := by
    unfold Reader.inUnits
    rw [List.map_map]
    rfl
  have hv : ∀ k, (r.inUnits u).valuesAt k = (r.valuesAt k).map (Option.map (u.amount * ·)) := by
    intro k
    unfold Reader.valuesAt Reader.inUnits
    dsimp only
    rw [List.filter_map, List.map_map, List.map_map]
    rfl
  rw [hk]
  have := flatMapE_units (fun k => do
    let labels ← s.labelsOf k.1
    Except.ok [(labels, r.keys.map (attrGet k.2), sqlSum (r.valuesAt k))]) (fun k => do
    let labels ← s.labelsOf k.1
    Except.ok [(labels, (r.inUnits u).keys.map (attrGet k.2), sqlSum ((r.inUnits u).valuesAt k))]) id
    (fun x => (x.1, x.2.1, x.2.2.map (u.amount * ·))) (distinct (r.rows.map fun x => (x.index, x.attrs))) ?_
  · rw [List.map_id] at this
    exact this
  · intro k _
    dsimp only [id]
    cases s.labelsOf k.1 with
    | error e => rfl
    | ok l =>
      show Except.ok _ = Except.ok _
      rw [hv, sqlSum_units]
      rfl

end

end Toron.Space
