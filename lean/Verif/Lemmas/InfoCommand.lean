/-
Attribute groups are in use, and their attributes are registered.
-/
import Verif.Spec.InfoCommand
import Verif.Lemmas.Store.Listing
import Verif.Lemmas.Store.Exact
import Verif.Lemmas.Store.Policies2
import Verif.Props.StoreFrame
import Verif.Props.Order

namespace Toron.Info

open Toron.Selectors (PyStr)
open Toron.Space

/-- Every attribute group belongs to a quantity. -/
def Used (s : Store) : Prop := ∀ g ∈ s.agroups, ∃ q ∈ s.quants, q.ag = g.id

theorem mem_attrNames {s : Store} {a : PyStr} : a ∈ s.attrNames ↔ ∃ g ∈ s.agroups, ∃ v, (a, v) ∈ g.attrs := by
  unfold Store.attrNames
  rw [(sortedBy_perm _ _).mem_iff, List.mem_dedup, List.mem_flatMap]
  simp

theorem pick_mem {row : QuantRow} {names : List PyStr} {kv : PyStr × PyStr} (h : kv ∈ row.pick names) : kv.1 ∈ names := by
  unfold QuantRow.pick at h
  obtain ⟨k, hk, h⟩ := List.mem_filterMap.1 h
  have hk : k ∈ names := mem_distinct.1 hk
  split at h
  · split at h
    · cases h
    · cases h; exact hk
  · cases h

theorem agGetOrAdd_facts {attrs : Attrs} {s t : Store} {g : AGroup} (h : agGetOrAdd attrs s = .ok (g, t)) :
    t.quants = s.quants ∧ t.regAttrs = s.regAttrs ∧
      ∀ x ∈ t.agroups, x ∈ s.agroups ∨ (x = g ∧ x.attrs = canonAttrs attrs) := by
  unfold agGetOrAdd at h
  obtain ⟨_, _, hg, h⟩ := bind_ok.1 h
  cases get_ok.1 hg
  cases hf : s.findAg attrs with
  | some g' =>
    rw [hf] at h
    cases h
    exact ⟨rfl, rfl, fun x hx => .inl hx⟩
  | none =>
    rw [hf] at h
    obtain ⟨_, u, h1, h⟩ := bind_ok.1 h
    simp only [agAdd, bind_ok, get_ok, ite_ok, throw_ok, put_ok] at h1
    obtain ⟨_, _, he, ⟨_, h1⟩ | ⟨_, ⟨_, h1⟩ | ⟨_, h1⟩⟩⟩ := h1
    · exact h1.elim
    · exact h1.elim
    cases he
    cases h1
    obtain ⟨_, _, hg, h⟩ := bind_ok.1 h
    cases get_ok.1 hg
    have hfind : Store.findAg { s with agroups := s.agroups ++ [⟨nextId (s.agroups.map (·.id)), canonAttrs attrs⟩] } attrs =
        some ⟨nextId (s.agroups.map (·.id)), canonAttrs attrs⟩ := by
      unfold Store.findAg at hf ⊢
      dsimp only
      rw [List.find?_append, hf]
      simp
    rw [hfind] at h
    cases h
    refine ⟨rfl, rfl, fun x hx => ?_⟩
    rcases List.mem_append.1 hx with hx | hx
    · exact .inl hx
    · rw [List.mem_singleton] at hx
      exact .inr ⟨hx, by rw [hx]⟩

/-- The registered attributes are these, all groups are used and satisfy a condition. -/
structure Good (R : Option (List PyStr)) (Q : AGroup → Prop) (s : Store) : Prop where
  reg : s.regAttrs = R
  all : ∀ g ∈ s.agroups, Q g
  used : Used s

theorem added {R : Option (List PyStr)} {Q : AGroup → Prop} {labels : List PyStr} {attrs : Attrs} {s t u : Store} {l : LocRec}
    {g : AGroup} (hs : Good R Q s) (hQ : ∀ g : AGroup, g.attrs = canonAttrs attrs → Q g)
    (h1 : locGetOrAdd labels s = .ok (l, t)) (h2 : agGetOrAdd attrs t = .ok (g, u)) :
    u.regAttrs = R ∧ (∀ g ∈ u.agroups, Q g) ∧ ∀ x ∈ u.agroups, x = g ∨ ∃ q ∈ u.quants, q.ag = x.id := by
  have k := (locGetOrAdd_does labels).steps _ _ _ h1
  have e1 := k.quants_eq (by decide)
  have e2 := k.agroups_eq (by decide)
  have e3 := k.regAttrs_eq (by decide)
  obtain ⟨f1, f2, f3⟩ := agGetOrAdd_facts h2
  refine ⟨by rw [f2, e3, hs.reg], fun x hx => ?_, fun x hx => ?_⟩
  · rcases f3 x hx with hx | ⟨_, hx⟩
    · rw [e2] at hx
      exact hs.all x hx
    · exact hQ x hx
  · rcases f3 x hx with hx | ⟨hx, _⟩
    · rw [e2] at hx
      rw [f1, e1]
      exact .inr (hs.used x hx)
    · exact .inl hx

theorem quantAdd_facts {loc ag : Nat} {v : ℚ} {s t : Store} {a : Unit} (h : quantAdd loc ag v s = .ok (a, t)) :
    ∃ n, t = { s with quants := s.quants ++ [⟨n, loc, ag, v⟩] } := by
  simp only [quantAdd, bind_ok, get_ok, ite_ok, throw_ok, put_ok] at h
  obtain ⟨_, _, he, ⟨_, h⟩ | ⟨_, ⟨_, h⟩ | ⟨_, h⟩⟩⟩ := h
  · exact h.elim
  · exact h.elim
  cases he
  cases h
  exact ⟨_, rfl⟩

theorem good_add {R : Option (List PyStr)} {Q : AGroup → Prop} {u t : Store} {g : AGroup} {loc : Nat} {v : ℚ} {a : Unit}
    (hu : u.regAttrs = R ∧ (∀ g ∈ u.agroups, Q g) ∧ ∀ x ∈ u.agroups, x = g ∨ ∃ q ∈ u.quants, q.ag = x.id)
    (h : quantAdd loc g.id v u = .ok (a, t)) : Good R Q t := by
  obtain ⟨n, rfl⟩ := quantAdd_facts h
  refine ⟨hu.1, hu.2.1, fun x hx => ?_⟩
  rcases hu.2.2 x hx with rfl | ⟨q, hq, hx⟩
  · exact ⟨_, List.mem_append_right _ (List.mem_singleton.2 rfl), rfl⟩
  · exact ⟨q, List.mem_append_left _ hq, hx⟩

theorem good_set {R : Option (List PyStr)} {Q : AGroup → Prop} {u t : Store} {g : AGroup} {i : Nat} {v : ℚ} {a : Unit} {q : Quant}
    (hu : u.regAttrs = R ∧ (∀ g ∈ u.agroups, Q g) ∧ ∀ x ∈ u.agroups, x = g ∨ ∃ q ∈ u.quants, q.ag = x.id)
    (hq : q ∈ u.quants) (hg : q.ag = g.id) (h : quantSetValue i v u = .ok (a, t)) : Good R Q t := by
  cases h
  have hm : ∀ q ∈ u.quants, ∃ q' ∈ u.quants.map (fun q => if q.id = i then { q with value := v } else q), q'.ag = q.ag := by
    intro q hq
    refine ⟨_, List.mem_map_of_mem hq, ?_⟩
    split <;> rfl
  refine ⟨hu.1, hu.2.1, fun x hx => ?_⟩
  rcases hu.2.2 x hx with rfl | ⟨q, hq, hx⟩
  · obtain ⟨q', h1, h2⟩ := hm q hq
    exact ⟨q', h1, h2.trans hg⟩
  · obtain ⟨q', h1, h2⟩ := hm q hq
    exact ⟨q', h1, h2.trans hx⟩

theorem row2_good {R : Option (List PyStr)} {Q : AGroup → Prop} {al ap : Bool} {p : Policy} {row : QuantRow} {s s' : Store}
    (hQ : ∀ g : AGroup, g.attrs = canonAttrs (row.pick (R.getD [])) → Q g)
    (hs : Good R Q s) (h : insertQuantity2Row al ap p row s = .ok ((), s')) : Good R Q s' := by
  unfold insertQuantity2Row at h
  obtain ⟨_, _, hg, h⟩ := bind_ok.1 h
  cases get_ok.1 hg
  dsimp only at h
  rw [hs.reg] at h
  rcases ite_ok.1 h with ⟨_, h⟩ | ⟨_, h⟩
  · cases h
  rcases ite_ok.1 h with ⟨_, h⟩ | ⟨_, h⟩
  · cases h; exact hs
  rcases ite_ok.1 h with ⟨_, h⟩ | ⟨_, h⟩
  · cases h
  rcases ite_ok.1 h with ⟨_, h⟩ | ⟨_, h⟩
  · cases h
  obtain ⟨l, t, h1, h⟩ := bind_ok.1 h
  obtain ⟨g, u, h2, h⟩ := bind_ok.1 h
  have hu := added hs hQ h1 h2
  split at h
  · rename_i heq
    cases h
    exact good_add hu heq
  · split at h
    · cases h
    · rename_i q hf
      unfold Store.findQuant at hf
      have hq := List.mem_of_find?_eq_some hf
      have hb := List.find?_some hf
      rw [Bool.and_eq_true, beq_iff_eq, beq_iff_eq] at hb
      split at h
      · cases h
      · cases h
        refine ⟨hu.1, hu.2.1, fun x hx => ?_⟩
        rcases hu.2.2 x hx with rfl | hx
        · exact ⟨q, hq, hb.2⟩
        · exact hx
      · exact good_set hu hq hb.2 h
      · exact good_set hu hq hb.2 h
      · cases h

theorem row_good {R : Option (List PyStr)} {Q : AGroup → Prop} {names : List PyStr} {row : QuantRow} {s s' : Store}
    (hQ : ∀ g : AGroup, g.attrs = canonAttrs (row.pick names) → Q g)
    (hs : Good R Q s) (h : insertQuantityRow names row s = .ok ((), s')) : Good R Q s' := by
  unfold insertQuantityRow at h
  obtain ⟨_, _, hg, h⟩ := bind_ok.1 h
  cases get_ok.1 hg
  dsimp only at h
  rcases ite_ok.1 h with ⟨_, h⟩ | ⟨_, h⟩
  · cases h; exact hs
  rcases ite_ok.1 h with ⟨_, h⟩ | ⟨_, h⟩
  · cases h; exact hs
  obtain ⟨l, t, h1, h⟩ := bind_ok.1 h
  obtain ⟨g, u, h2, h⟩ := bind_ok.1 h
  exact good_add (added hs hQ h1 h2) h

theorem insert2_good {Q : AGroup → Prop} {al ap : Bool} {p : Policy} {rows : List QuantRow} {s : Store}
    (hQ : ∀ row ∈ rows, ∀ g : AGroup, g.attrs = canonAttrs (row.pick (s.regAttrs.getD [])) → Q g)
    (hs : Good s.regAttrs Q s) : Good s.regAttrs Q (step (.insertQuantities2 al ap p rows) s).1 := by
  cases hr : (step (.insertQuantities2 al ap p rows) s).2 with
  | error e =>
    have : (step (.insertQuantities2 al ap p rows) s).1 = s := runTx_error hr
    rw [this]; exact hs
  | ok _ =>
    have h : insertQuantities2 al ap p rows s = _ := step_ok rfl hr
    unfold insertQuantities2 at h
    obtain ⟨_, _, hg, h⟩ := bind_ok.1 h
    cases get_ok.1 hg
    rcases ite_ok.1 h with ⟨_, h⟩ | ⟨_, h⟩
    · cases h
    · exact forM_keep (P := Good s.regAttrs Q) (fun row hrow _ _ hp h => row2_good (hQ row hrow) hp h) hs h

theorem insert_good {Q : AGroup → Prop} {names : List PyStr} {rows : List QuantRow} {s : Store}
    (hQ : ∀ n : List PyStr, (∀ a ∈ n, a ∈ names) → ∀ row ∈ rows, ∀ g : AGroup, g.attrs = canonAttrs (row.pick n) → Q g)
    (hs : Good s.regAttrs Q s) : Good s.regAttrs Q (step (.insertQuantities names rows) s).1 := by
  cases hr : (step (.insertQuantities names rows) s).2 with
  | error e =>
    have : (step (.insertQuantities names rows) s).1 = s := runTx_error hr
    rw [this]; exact hs
  | ok _ =>
    have h : insertQuantities names rows s = _ := step_ok rfl hr
    unfold insertQuantities at h
    obtain ⟨_, _, hg, h⟩ := bind_ok.1 h
    cases get_ok.1 hg
    refine forM_keep (P := Good s.regAttrs Q) (fun row hrow _ _ hp h => row_good (hQ _ ?_ row hrow) hp h) hs h
    intro a ha
    split at ha
    · exact ha
    · exact (List.mem_filter.1 ha).1

theorem dropUnused_used (s : Store) : Used s.dropUnusedAg := by
  intro g hg
  have := (List.mem_filter.1 hg).2
  obtain ⟨q, hq, h⟩ := List.any_eq_true.1 this
  exact ⟨q, hq, beq_iff_eq.1 h⟩

theorem deleted_good {s : Store} (hr : Reachable s) {op : Op}
    (h : op = .deleteQuantitiesWithoutIndex ∨ op = .deleteUnmatchedQuantities) :
    Used (step op s).1 ∧ ∀ g ∈ (step op s).1.agroups, g ∈ s.agroups := by
  rcases h with rfl | rfl
  · have hrun := deleteWithoutIndex_eq hr.quantInv
    set t : Store := { s with quants := s.quants.filter fun q => decide (q.loc ∉ s.lostLocs) } with ht
    have hstep : step .deleteQuantitiesWithoutIndex s = (t.dropUnusedLoc.dropUnusedAg, .ok ()) := by
      show runTx deleteQuantitiesWithoutIndex s = _
      unfold runTx
      rw [hrun]
      have : fkOk t.dropUnusedLoc.dropUnusedAg = fkOk s := rfl
      simp only [this, hr.fkOk, if_true]
    rw [hstep]
    exact ⟨dropUnused_used _, fun g hg => (List.mem_filter.1 hg).1⟩
  · have hrun := deleteUnmatched_eq hr.fkOk
    have e : (step .deleteUnmatchedQuantities s).1 = (deleteUnmatchedQuantities s).1 := rfl
    rw [e, hrun]
    exact ⟨dropUnused_used _, fun g hg => (List.mem_filter.1 hg).1⟩

theorem step_used {s : Store} (hr : Reachable s) (hs : Used s) (op : Op) : Used (step op s).1 := by
  have hgood : Good s.regAttrs (fun _ => True) s := ⟨rfl, fun _ _ => trivial, hs⟩
  by_cases hm : Part.quantities ∈ op.may
  · cases op <;> simp only [Op.may, List.mem_cons, List.not_mem_nil, reduceCtorEq, or_self, false_or] at hm
    · exact (insert2_good (fun _ _ _ _ => trivial) hgood).used
    · exact (insert_good (fun _ _ _ _ _ _ => trivial) hgood).used
    · exact (deleted_good hr (.inl rfl)).1
    · exact (deleted_good hr (.inr rfl)).1
  · obtain ⟨h1, h2⟩ := C76_unrelated s hr op .quantities hm
    intro g hg
    rw [h2] at hg
    rw [h1]
    exact hs g hg

theorem run_snoc (ops : List Op) (op : Op) (s : Store) : run (ops ++ [op]) s = (step op (run ops s)).1 := by
  unfold run
  rw [List.foldl_append]
  rfl

theorem reachable_used {s : Store} (hr : Reachable s) : Used s := by
  obtain ⟨uid, ops, rfl⟩ := hr
  induction ops using List.reverseRecOn with
  | nil => intro g hg; cases hg
  | append_singleton ops op ih =>
    rw [run_snoc]
    exact step_used ⟨uid, ops, rfl⟩ ih op

theorem step_registered {s : Store} (hr : Reachable s) (hs : QuantCsv.AllRegistered s) {op : Op} (hop : Registering s op) :
    QuantCsv.AllRegistered (step op s).1 := by
  have hgood : Good s.regAttrs (fun g => ∀ kv ∈ g.attrs, kv.1 ∈ s.regAttrs.getD []) s := ⟨rfl, hs, reachable_used hr⟩
  have keep : ∀ t : Store, Good s.regAttrs (fun g => ∀ kv ∈ g.attrs, kv.1 ∈ s.regAttrs.getD []) t →
      QuantCsv.AllRegistered t := by
    intro t ht g hg kv hkv
    rw [ht.reg]
    exact ht.all g hg kv hkv
  by_cases hm : Part.quantities ∈ op.may
  · have ha : Part.attributes ∉ op.may := by
      cases op <;> simp only [Op.may, List.mem_cons, List.not_mem_nil, reduceCtorEq, or_self, false_or] at hm <;>
        simp [Op.may]
    have hreg : (step op s).1.regAttrs = s.regAttrs := C76_unrelated s hr op .attributes ha
    cases op <;> simp only [Op.may, List.mem_cons, List.not_mem_nil, reduceCtorEq, or_self, false_or] at hm
    · refine keep _ (insert2_good (fun row _ g hg kv hkv => ?_) hgood)
      rw [hg, (canonAttrs_perm _).mem_iff] at hkv
      exact pick_mem hkv
    · refine keep _ (insert_good (fun n hn row _ g hg kv hkv => ?_) hgood)
      rw [hg, (canonAttrs_perm _).mem_iff] at hkv
      exact hop _ (hn _ (pick_mem hkv))
    · intro g hg
      rw [hreg]
      exact hs g ((deleted_good hr (.inl rfl)).2 g hg)
    · intro g hg
      rw [hreg]
      exact hs g ((deleted_good hr (.inr rfl)).2 g hg)
  · obtain ⟨h1, h2⟩ := C76_unrelated s hr op .quantities hm
    have hsub : ∀ a ∈ s.regAttrs.getD [], a ∈ (step op s).1.regAttrs.getD [] := by
      by_cases ha : Part.attributes ∈ op.may
      · cases hres : (step op s).2 with
        | error e =>
          have : (step op s).1 = s := by
            cases op <;> simp only [Op.may, List.mem_cons, List.not_mem_nil, reduceCtorEq, or_self, false_or] at ha <;>
              exact runTx_error hres
          rw [this]
          exact fun _ h => h
        | ok _ =>
          cases op <;> simp only [Op.may, List.mem_cons, List.not_mem_nil, reduceCtorEq, or_self, false_or] at ha
          · rename_i as
            have h : setRegisteredAttributes as s = _ := step_ok rfl hres
            unfold setRegisteredAttributes at h
            simp only [bind_ok, get_ok, ite_ok, throw_ok, put_ok] at h
            obtain ⟨_, _, he, ⟨_, h⟩ | ⟨_, ⟨_, h⟩ | ⟨_, ⟨_, h⟩ | ⟨_, h⟩⟩⟩⟩ := h
            · exact h.elim
            · exact h.elim
            · exact h.elim
            · cases he
              have h := congrArg Prod.snd h
              dsimp only at h
              rw [h]
              exact hop
          · rename_i x off
            obtain ⟨out, hmv, h⟩ := C36_change_attribute_order (s := s) (s' := (step (.changeAttributeOrder x off) s).1)
              (a := x) (offset := off) (Prod.ext rfl hres)
            rw [h]
            obtain ⟨l, r, l', r', e1, _, e2, he, _⟩ := hmv
            intro a ha
            rw [e1] at ha
            show a ∈ out
            rw [e2]
            have h3 : a = x ∨ a ∈ l ++ r := by
              rcases List.mem_append.1 ha with h | h
              · exact .inr (List.mem_append_left _ h)
              · rcases List.mem_cons.1 h with h | h
                · exact .inl h
                · exact .inr (List.mem_append_right _ h)
            rcases h3 with rfl | h3
            · simp
            · rw [← he] at h3
              rcases List.mem_append.1 h3 with h | h <;> simp [h]
      · have : (step op s).1.regAttrs = s.regAttrs := C76_unrelated s hr op .attributes ha
        rw [this]
        exact fun _ h => h
    intro g hg kv hkv
    rw [h2] at hg
    exact hsub _ (hs g hg kv hkv)

theorem registering_reachable {s : Store} (h : ReachableRegistering s) : Reachable s := by
  obtain ⟨uid, ops, _, rfl⟩ := h
  exact ⟨uid, ops, rfl⟩

theorem registering_registered {s : Store} (h : ReachableRegistering s) : QuantCsv.AllRegistered s := by
  obtain ⟨uid, ops, hall, rfl⟩ := h
  induction ops using List.reverseRecOn with
  | nil => intro g hg; cases hg
  | append_singleton ops op ih =>
    rw [run_snoc]
    refine step_registered ⟨uid, ops, rfl⟩ (ih fun pre o post he => hall pre o (post ++ [op]) (by rw [he]; simp)) ?_
    exact hall ops op [] rfl

theorem loaded_iff {s : Store} (hr : Reachable s) {a : PyStr} : a ∈ s.attrNames ↔ Loaded s a := by
  rw [mem_attrNames]
  constructor
  · rintro ⟨g, hg, v, hv⟩
    obtain ⟨q, hq, h⟩ := reachable_used hr g hg
    exact ⟨q, hq, g, hg, h.symm, v, hv⟩
  · rintro ⟨_, _, g, hg, _, v, hv⟩
    exact ⟨g, hg, v, hv⟩

theorem registered_iff {s : Store} : QuantCsv.AllRegistered s ↔ ∀ a ∈ s.attrNames, a ∈ s.regAttrs.getD [] := by
  constructor
  · intro h a ha
    obtain ⟨g, hg, v, hv⟩ := mem_attrNames.1 ha
    exact h g hg _ hv
  · intro h g hg kv hkv
    exact h _ (mem_attrNames.2 ⟨g, hg, kv.2, hkv⟩)

/-! ### The text -/

theorem indentJoin_text (t : PyStr) (ts : List PyStr) :
    ' ' :: ' ' :: indentJoin (t :: ts) ++ ['\n'] = (t :: ts).flatMap fun l => ' ' :: ' ' :: l ++ ['\n'] := by
  induction ts generalizing t with
  | nil => simp [indentJoin]
  | cons u ts ih =>
    rw [indentJoin, List.flatMap_cons, ← ih u]
    · simp
    · simp

end Toron.Info
