/-
Lemmas about the editing commands.
-/
import Verif.Spec.CliEdit
import Verif.Props.StoreHistory
import Verif.Props.StoreLinks
import Verif.Props.LoadMapping

namespace Toron.CliEdit

open Toron.Selectors (PyStr Sel startsWith)
open Toron.Space
open Toron.LoadMapping (Direction LinkArgs Outcome addLink_unused)

theorem opened_eq (s : Store) : opened s = { s with fk := false } := rfl

theorem opened_reachable {s : Store} (h : Reachable s) : Reachable (opened s) := h.step .reopen

/-! ### Adding a link succeeds -/

/-- What identifies the links. -/
def keys (s : Store) : List (Nat × PyStr × PyStr) := s.links.map fun l => (l.id, l.other, l.name)

theorem linkUpdate_accepts {s t : Store} (hs : LinkInv s) (hk : keys t = keys s) {l : Link} (hl : l ∈ s.links) :
    ∃ t', linkUpdate { l with isDefault := false } t = .ok ((), t') ∧ keys t' = keys s ∧ t'.fk = t.fk ∧
      ∀ x ∈ t'.links, x ∈ t.links ∨ x.isDefault = false := by
  have hmem : ∀ x ∈ t.links, ∃ y ∈ s.links, y.id = x.id ∧ y.other = x.other ∧ y.name = x.name := by
    intro x hx
    have : (x.id, x.other, x.name) ∈ keys s := by rw [← hk]; exact List.mem_map.2 ⟨x, hx, rfl⟩
    obtain ⟨y, hy, he⟩ := List.mem_map.1 this
    exact ⟨y, hy, congrArg Prod.fst he, congrArg (·.2.1) he, congrArg (·.2.2) he⟩
  have h1 : ¬ ¬ (t.links.any fun x => x.id == l.id) = true := by
    rw [not_not, List.any_eq_true]
    have : (l.id, l.other, l.name) ∈ keys t := by rw [hk]; exact List.mem_map.2 ⟨l, hl, rfl⟩
    obtain ⟨y, hy, he⟩ := List.mem_map.1 this
    exact ⟨y, hy, by rw [beq_iff_eq]; exact congrArg Prod.fst he⟩
  have h2 : ¬ (t.links.any fun x => x.id != l.id && x.other == l.other &&
      (x.name == l.name || (x.isDefault && false))) = true := by
    rw [List.any_eq_true]
    rintro ⟨x, hx, he⟩
    simp only [Bool.and_false, Bool.or_false, Bool.and_eq_true, bne_iff_ne, beq_iff_eq] at he
    obtain ⟨y, hy, e1, e2, e3⟩ := hmem x hx
    have := List.inj_on_of_nodup_map hs.names hy hl (by rw [Prod.mk.injEq]; exact ⟨e2.trans he.1.2, e3.trans he.2⟩)
    exact he.1.1 (by rw [← e1, this])
  refine ⟨{ t with links := t.links.map fun x => if x.id = l.id then { l with isDefault := false } else x }, ?_, ?_, rfl, ?_⟩
  · show (if ¬ (t.links.any fun x => x.id == l.id) = true then _ else if _ then _ else _ : M Unit) t = _
    rw [if_neg h1, if_neg h2]
    rfl
  · unfold keys
    rw [List.map_map]
    refine Eq.trans ?_ hk
    unfold keys
    apply List.map_congr_left
    intro x hx
    show _ = (x.id, x.other, x.name)
    by_cases hid : x.id = l.id
    · obtain ⟨y, hy, e1, e2, e3⟩ := hmem x hx
      have : y = l := eq_of_id hs.ids hy hl (e1.trans hid)
      subst this
      simp only [Function.comp, hid, if_true]
      rw [e2, e3]
    · simp only [Function.comp, hid, if_false]
  · intro x hx
    obtain ⟨y, hy, rfl⟩ := List.mem_map.1 hx
    by_cases hid : y.id = l.id
    · rw [if_pos hid]; exact .inr rfl
    · rw [if_neg hid]; exact .inl hy

theorem forM_accepts {s : Store} (hs : LinkInv s) : ∀ (ls : List Link) (t : Store), (∀ l ∈ ls, l ∈ s.links) →
    keys t = keys s → ∃ t', ls.forM (fun l => linkUpdate { l with isDefault := false }) t = .ok ((), t') ∧ keys t' = keys s ∧
      t'.fk = t.fk
  | [], t, _, hk => ⟨t, rfl, hk, rfl⟩
  | l :: ls, t, hsub, hk => by
    obtain ⟨t1, h1, hk1, hf1, -⟩ := linkUpdate_accepts hs hk (hsub l List.mem_cons_self)
    obtain ⟨t2, h2, hk2, hf2⟩ := forM_accepts hs ls t1 (fun l hl => hsub l (List.mem_cons_of_mem _ hl)) hk1
    refine ⟨t2, ?_, hk2, hf2.trans hf1⟩
    exact bind_ok.2 ⟨_, _, h1, h2⟩

theorem addLink_accepts {other name : PyStr} {hint : Option PyStr} {selectors : List Sel} {isDefault : Option Bool}
    {otherHash : Option (List Int)} {complete : Bool} {s : Store} (hs : LinkInv s)
    (h : ∀ l ∈ s.links, l.other = other → l.name ≠ name) :
    ∃ s', Space.addLink other name hint selectors isDefault otherHash complete s = .ok ((), s') ∧ s'.fk = s.fk := by
  unfold Space.addLink
  have h1 : ¬ ((s.links.filter fun l => l.other == other).any fun l => l.name == name) = true := by
    rw [List.any_eq_true]
    rintro ⟨l, hl, he⟩
    obtain ⟨hl, ho⟩ := List.mem_filter.1 hl
    exact h l hl (beq_iff_eq.1 ho) (beq_iff_eq.1 he)
  set dflt := isDefault.getD (s.links.filter fun l => l.other == other).isEmpty with hd
  -- after the updates
  have key : ∀ t : Store, keys t = keys s → (dflt = true → ∀ x ∈ t.links, x.other = other → x.isDefault = false) →
      ∃ s', linkAdd ⟨0, other, hint, name, selectors, dflt, otherHash, complete⟩ t = .ok ((), s') ∧ s'.fk = t.fk := by
    intro t hk hdf
    have h2 : ¬ (t.links.any fun x => x.other == other && (x.name == name || (x.isDefault && dflt))) = true := by
      rw [List.any_eq_true]
      rintro ⟨x, hx, he⟩
      simp only [Bool.and_eq_true, Bool.or_eq_true, beq_iff_eq] at he
      rcases he.2 with hn | ⟨hd1, hd2⟩
      · have : (x.id, x.other, x.name) ∈ keys s := by rw [← hk]; exact List.mem_map.2 ⟨x, hx, rfl⟩
        obtain ⟨y, hy, he'⟩ := List.mem_map.1 this
        have e2 : y.other = x.other := congrArg (·.2.1) he'
        have e3 : y.name = x.name := congrArg (·.2.2) he'
        exact h y hy (e2.trans he.1) (e3.trans hn)
      · rw [hdf hd2 x hx he.1] at hd1
        exact absurd hd1 (by decide)
    refine ⟨t.withLink ⟨0, other, hint, name, selectors, dflt, otherHash, complete⟩, ?_, rfl⟩
    · show (if (t.links.any fun x => x.other == other && (x.name == name || (x.isDefault && dflt))) = true then _ else _ :
        M Unit) t = _
      rw [if_neg h2]
      rfl
  by_cases hdf : dflt = true
  · obtain ⟨t, ht, hk, hf⟩ := forM_accepts hs ((s.links.filter fun l => l.other == other).filter (·.isDefault)) s
      (fun l hl => List.mem_of_mem_filter (List.mem_of_mem_filter hl)) rfl
    have hex := forM_linkUpdate (g := fun l => { l with isDefault := false }) hs.ids
      (fun l hl => List.mem_of_mem_filter (List.mem_of_mem_filter hl)) (fun _ _ => rfl) ht
    obtain ⟨s', h3, hf'⟩ := key t hk (by
      intro _ x hx ho
      rw [hex] at hx
      obtain ⟨y, hy, rfl⟩ := List.mem_map.1 hx
      by_cases hm : y.id ∈ ((s.links.filter fun l => l.other == other).filter (·.isDefault)).map (·.id)
      · rw [if_pos hm]
      · rw [if_neg hm] at ho ⊢
        rw [Bool.eq_false_iff]
        intro hyd
        exact hm (List.mem_map.2 ⟨y, List.mem_filter.2 ⟨List.mem_filter.2 ⟨hy, by simpa using ho⟩, hyd⟩, rfl⟩))
    refine ⟨s', ?_, hf'.trans hf⟩
    refine bind_ok.2 ⟨_, _, get_ok.2 rfl, ?_⟩
    dsimp only
    rw [if_neg h1, ← hd, if_pos hdf, forM_if]
    exact bind_ok.2 ⟨_, _, ht, h3⟩
  · obtain ⟨s', h3, hf'⟩ := key s rfl (fun h => absurd h hdf)
    refine ⟨s', ?_, hf'⟩
    refine bind_ok.2 ⟨_, _, get_ok.2 rfl, ?_⟩
    dsimp only
    rw [if_neg h1, ← hd, if_neg hdf]
    exact bind_ok.2 ⟨_, _, rfl, h3⟩

theorem map_ids {f : Link → Link} (hf : ∀ l, (f l).id = l.id) {ls : List Link} :
    (ls.map f).map (·.id) = ls.map (·.id) := by
  rw [List.map_map]
  exact List.map_congr_left fun l _ => hf l

/-- `toron add link` on one file. -/
theorem doAdd_spec {a : LinkArgs} {other : PyStr} {hint : Option PyStr} {s : Store} (hr : Reachable s) :
    (HasLink s other a.name → ∃ e, doAdd a other hint (opened s) = (opened s, .error e)) ∧
    (¬ HasLink s other a.name → ∃ s', doAdd a other hint (opened s) = (s', .ok ()) ∧ NewLink a other hint s s') := by
  have ho := opened_reachable hr
  constructor
  · rintro ⟨l, hl, h1, h2⟩
    unfold doAdd
    rcases hres : (step (.addLink other a.name hint a.selectors a.isDefault none false) (opened s)).2 with e | u
    · refine ⟨e, Prod.ext ?_ hres⟩
      rw [step_of_body (by rfl)] at hres ⊢
      exact runTx_error hres
    · exact absurd h2 (addLink_unused (step_ok (by rfl) hres) l hl h1)
  · intro h
    have h' : ∀ l ∈ (opened s).links, l.other = other → l.name ≠ a.name := fun l hl h1 h2 => h ⟨l, hl, h1, h2⟩
    obtain ⟨s', hs', hf⟩ := addLink_accepts (hint := hint) (selectors := a.selectors) (isDefault := a.isDefault)
      (otherHash := none) (complete := false) ho.linkInv h'
    have hfk : fkOk s' = true := by unfold fkOk; rw [hf]; rfl
    refine ⟨s', ?_, ?_⟩
    · unfold doAdd
      rw [step_of_body (by rfl)]
      unfold runTx
      rw [hs']
      simp only [hfk, if_true]
    · have : s' = ({ s with
          links := s.links.map fun l => if l.other = other ∧ a.isDefault.getD (s.links.all fun l => l.other != other) = true
            then { l with isDefault := false } else l
          fk := false } : Store).withLink ⟨0, other, hint, a.name, a.selectors,
            a.isDefault.getD (s.links.all fun l => l.other != other), none, false⟩ := addLink_ok ho.linkInv.ids hs'
      refine ⟨nextId (s.links.map (·.id)), _, nextId_not_mem _, rfl, ?_⟩
      generalize a.isDefault.getD (s.links.all fun l => l.other != other) = dflt at this ⊢
      rw [this]
      unfold Store.withLink
      dsimp only
      rw [map_ids fun l => by split <;> rfl]

/-! ### Removing a link -/

theorem startsWith_prefix {a b : PyStr} (h : startsWith a b = true) : b <+: a := by
  unfold startsWith at h
  rw [← beq_iff_eq.1 h]
  exact List.take_prefix _ _

theorem getLink_found {s : Store} (hs : LinkInv s) {other name : PyStr} (ho : other ≠ []) (hn : name ≠ []) {l : Link}
    (hl : l ∈ s.links) (h1 : l.other = other) (h2 : l.name = name) : getLink s.links other (some name) = .ok l := by
  have hmem : l ∈ s.links.filter fun l => l.other == other := List.mem_filter.2 ⟨hl, by simp [h1]⟩
  have hf : (s.links.filter fun l => l.other == other).find? (fun l => some l.name == some name) = some l := by
    rcases hf : (s.links.filter fun l => l.other == other).find? (fun l => some l.name == some name) with _ | x
    · exact absurd (by simp [h2]) (List.find?_eq_none.1 hf l hmem)
    · have hx := List.mem_filter.1 (List.mem_of_find?_eq_some hf)
      have hxn : x.name = name := by simpa using List.find?_some hf
      have hxo : x.other = other := by simpa using hx.2
      rw [List.inj_on_of_nodup_map hs.names hx.1 hl (by rw [hxn, hxo, h1, h2])] at hf
      exact hf
  unfold getLink getLinksByRef
  rw [if_neg ho]
  dsimp only
  rw [if_pos (List.ne_nil_of_mem hmem)]
  show (if some name ≠ none ∧ some name ≠ some [] then _ else _) = _
  rw [if_pos ⟨by simp, by simpa using hn⟩, hf]

theorem getLink_missing {s : Store} {other name : PyStr} (ho : ProperId s other) (hn : name ≠ [])
    (h : ¬ HasLink s other name) : ∃ m, getLink s.links other (some name) = .error (.toronError m) := by
  unfold getLink getLinksByRef
  rw [if_neg ho.1]
  dsimp only
  by_cases he : (s.links.filter fun l => l.other == other) = []
  · rw [if_neg (by simpa using he)]
    have e1 : (s.links.filter fun l => l.hint == some other) = [] := by
      rw [List.filter_eq_nil_iff]
      intro l hl hc
      exact (ho.2 l hl).1 (by simpa using hc)
    have e2 : (s.links.filter fun l => l.hint == some (other ++ toronExt)) = [] := by
      rw [List.filter_eq_nil_iff]
      intro l hl hc
      exact (ho.2 l hl).2.1 (by simpa using hc)
    have e3 : (s.links.filter fun l => startsWith l.other other) = [] := by
      rw [List.filter_eq_nil_iff]
      intro l hl hc
      have := (ho.2 l hl).2.2 (startsWith_prefix hc)
      exact List.filter_eq_nil_iff.1 he l hl (by simpa using this)
    rw [e1, e2, e3]
    simp only [List.append_nil, ite_self]
    exact ⟨_, rfl⟩
  · rw [if_pos he]
    show ∃ m, (if some name ≠ none ∧ some name ≠ some [] then _ else _) = _
    rw [if_pos ⟨by simp, by simpa using hn⟩]
    have : (s.links.filter fun l => l.other == other).find? (fun l => some l.name == some name) = none := by
      rw [List.find?_eq_none]
      intro l hl hc
      obtain ⟨hl, hlo⟩ := List.mem_filter.1 hl
      exact h ⟨l, hl, by simpa using hlo, by simpa using hc⟩
    rw [this]
    exact ⟨_, rfl⟩

theorem without_eq {s : Store} (hs : LinkInv s) {other name : PyStr} {l : Link}
    (hl : l ∈ s.links) (h1 : l.other = other) (h2 : l.name = name) :
    s.links.filter (fun x => x.id != l.id) = without s.links other name := by
  unfold without
  apply List.filter_congr
  intro x hx
  rw [Bool.eq_iff_iff]
  simp only [bne_iff_ne, Bool.not_eq_true', Bool.and_eq_false_iff, beq_eq_false_iff_ne, ne_eq]
  constructor
  · intro hne
    by_contra hc
    have hc : x.other = other ∧ x.name = name := by
      constructor
      · by_contra h; exact hc (.inl h)
      · by_contra h; exact hc (.inr h)
    exact hne (by rw [List.inj_on_of_nodup_map hs.names hx hl (by rw [hc.1, hc.2, h1, h2])])
  · intro hc hid
    have := eq_of_id hs.ids hx hl hid
    subst this
    exact hc.elim (fun h => h h1) (fun h => h h2)

theorem without_missing {s : Store} {other name : PyStr} (h : ¬ HasLink s other name) :
    without s.links other name = s.links := by
  unfold without
  rw [List.filter_eq_self]
  intro l hl
  rw [Bool.not_eq_true', Bool.and_eq_false_iff]
  by_cases ho : l.other = other
  · exact .inr (by simpa using fun hn => h ⟨l, hl, ho, hn⟩)
  · exact .inl (by simpa using ho)

/-- `toron remove link` on one file: the links. The mappings stay. -/
theorem tryRemove_spec {s : Store} (hr : Reachable s) {other name : PyStr} (ho : ProperId s other) (hn : name ≠ [])
    [Decidable (HasLink s other name)] :
    tryRemove other name (opened s) =
      ({ s with links := without s.links other name, fk := false }, .ok (decide (HasLink s other name))) := by
  have hlinks : (opened s).links = s.links := rfl
  by_cases h : HasLink s other name
  · obtain ⟨l, hl, h1, h2⟩ := id h
    have hg := getLink_found hr.linkInv ho.1 hn hl h1 h2
    have hd : dropLink other (some name) (opened s) =
        .ok ((), { s with links := without s.links other name, fk := false }) := by
      unfold dropLink
      refine bind_ok.2 ⟨_, _, get_ok.2 rfl, bind_ok.2 ⟨l, opened s, ?_, ?_⟩⟩
      · unfold liftE
        rw [hlinks, hg]
        rfl
      · rw [← without_eq hr.linkInv hl h1 h2]
        rfl
    unfold tryRemove
    rw [step_of_body (by rfl)]
    have : runTx (dropLink other (some name)) (opened s) =
        ({ s with links := without s.links other name, fk := false }, .ok ()) := by
      unfold runTx
      rw [hd]
      rfl
    rw [this, decide_eq_true h]
  · obtain ⟨m, hg⟩ := getLink_missing ho hn h
    have hd : dropLink other (some name) (opened s) = .error (.toronError m) := by
      unfold dropLink
      show ((liftE (getLink (opened s).links other (some name))) (opened s) >>= fun p => linkDelete p.1.id p.2) = _
      unfold liftE
      rw [hlinks, hg]
      rfl
    unfold tryRemove
    rw [step_of_body (by rfl)]
    have : runTx (dropLink other (some name)) (opened s) = (opened s, .error (.toronError m)) := by
      unfold runTx
      rw [hd]
    rw [this, without_missing h, decide_eq_false h]
    rfl

end Toron.CliEdit
