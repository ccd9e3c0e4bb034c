import Verif.Lemmas.Objects

/-
What the operations of the config manager do to the objects.
-/

namespace Verif.Model
open Verif.Py
variable {V : Type}

/-- A config is put at a place. -/
def View.put (a : View V) : Place → Conf V → View V
  | .item p, c => a.setConf p c
  | .cfg p, c => { a with slot := fun q => if q = p then .sect (some c) else a.slot q }
  | .loc, c => { a with localConf := c }
  | .root, _ => a

theorem View.put_slot (a : View V) (pl : Place) (c : Conf V) (q : List String) : (a.put pl c).slot q =
    if pl = .item q then .conf c else if pl = .cfg q then .sect (some c) else a.slot q := by
  cases pl with
  | item p =>
    simp only [View.put, View.setConf, Place.item.injEq, reduceCtorEq, if_false]
    by_cases h : q = p
    · rw [if_pos h, if_pos h.symm]
    · rw [if_neg h, if_neg (fun e => h e.symm)]
  | cfg p =>
    simp only [View.put, Place.cfg.injEq, reduceCtorEq, if_false]
    by_cases h : q = p
    · rw [if_pos h, if_pos h.symm]
    · rw [if_neg h, if_neg (fun e => h e.symm)]
  | loc => simp [View.put]
  | root => simp [View.put]

namespace HS

/-- The local config. -/
def lconf (s : HS V) : Conf V := (s.confAt s.localConf).getD (Conf.ofDict Dict.empty)

/-- What there is to see, at clean paths. -/
def view (s : HS V) : View V where
  fs := s.fs
  rootName := s.rootName
  localConf := s.lconf
  slot q := if CleanPath s.rootName q then s.hslot q else .absent

theorem view_slot {s : HS V} {q : List String} (h : CleanPath s.rootName q) : s.view.slot q = s.hslot q := if_pos h

theorem confAt_some {s : HS V} {r : Nat} {c : Conf V} : s.confAt r = some c ↔ s.heap[r]? = some (.conf c) := by
  unfold confAt
  cases s.heap[r]? with
  | none => simp
  | some o => cases o <;> simp

theorem confAt_write {s : HS V} {r : Nat} {c0 : Conf V} (h : s.heap[r]? = some (.conf c0)) (c : Conf V) (k : Nat) :
    (s.write r c).confAt k = if k = r then some c else s.confAt k := by
  unfold confAt
  rw [write_get s r c (List.getElem?_eq_some_iff.1 h).1]
  by_cases hk : k = r
  · rw [if_pos hk, if_pos hk]
  · rw [if_neg hk, if_neg hk]

theorem slotAt_write {s : HS V} {r : Nat} {c0 : Conf V} (h : s.heap[r]? = some (.conf c0)) (c : Conf V) (k : Nat) :
    (s.write r c).slotAt k = if k = r then .conf c else if s.cfgOf k = some r then .sect (some c) else s.slotAt k := by
  unfold slotAt cfgOf
  rw [write_get s r c (List.getElem?_eq_some_iff.1 h).1]
  by_cases hk : k = r
  · rw [if_pos hk, if_pos hk]
  · rw [if_neg hk, if_neg hk]
    cases s.heap[k]? with
    | none => rfl
    | some o =>
      cases o with
      | conf c => rfl
      | file l => rfl
      | sect nm cfg attrs map =>
        cases cfg with
        | none => rfl
        | some k' =>
          simp only [Option.bind_some, Option.some.injEq]
          rw [confAt_write h]
          by_cases hk' : k' = r
          · rw [if_pos hk', if_pos hk']
          · rw [if_neg hk', if_neg hk']

/-- The config at a place that is not the project's section. -/
theorem view_write {s : HS V} (hi : HInv s) {a : Place} (ha : a.Clean s.rootName) {r : Nat} (hr : s.place a = some r)
    {c0 : Conf V} (h : s.heap[r]? = some (.conf c0)) (c : Conf V) : (s.write r c).view = s.view.put a c := by
  have hk := kept_write hi h c
  have hslot : ∀ q, (s.write r c).view.slot q = (s.view.put a c).slot q := by
    intro q
    rw [View.put_slot]
    by_cases hq : CleanPath s.rootName q
    · rw [view_slot (s := s.write r c) hq, view_slot hq]
      unfold hslot
      rw [hk.find q hq]
      cases hf : s.find q with
      | none =>
        have h1 : a ≠ .item q := by intro e; subst e; simp [place, hf] at hr
        have h2 : a ≠ .cfg q := by intro e; subst e; simp [place, hf] at hr
        rw [if_neg h1, if_neg h2]
      | some v =>
        have key : ∀ k, (v = .mgr ∧ k = s.section_ ∨ v = .ref k) → (s.write r c).slotAt k =
            if a = .item q then .conf c else if a = .cfg q then .sect (some c) else s.slotAt k := by
          intro k hv
          rw [slotAt_write h]
          by_cases hkr : k = r
          · rcases hv with ⟨hv, hk'⟩ | hv
            · exfalso
              obtain ⟨cfg, attrs, map, hs⟩ := hi.root
              rw [← hk', hkr, h] at hs
              cases hs
            · have : a = .item q := hi.inj a (.item q) r ha hq hr (by simp [place, hf, hv, hkr])
              rw [if_pos hkr, if_pos this]
          · have h1 : a ≠ .item q := by
              intro e; subst e
              rcases hv with ⟨hv, hk'⟩ | hv
              · simp [place, hf, hv] at hr
              · simp [place, hf, hv] at hr; exact hkr hr
            have hcfg : s.place (.cfg q) = s.cfgOf k := by
              rcases hv with ⟨hv, hk'⟩ | hv
              · simp [place, hf, hv, hk']
              · simp [place, hf, hv]
            rw [if_neg hkr, if_neg h1]
            by_cases h2 : a = .cfg q
            · have : s.cfgOf k = some r := by rw [← hcfg, ← h2]; exact hr
              rw [if_pos this, if_pos h2]
            · have : s.cfgOf k ≠ some r := by
                intro e
                exact h2 (hi.inj a (.cfg q) r ha hq hr (hcfg.trans e))
              rw [if_neg this, if_neg h2]
        cases v with
        | mgr => exact key _ (.inl ⟨rfl, rfl⟩)
        | ref k => exact key _ (.inr rfl)
        | none =>
          exfalso
          unfold find at hf
          split at hf <;> simp at hf
        | other =>
          exfalso
          unfold find at hf
          split at hf <;> simp at hf
    · have h1 : a ≠ .item q := by intro e; subst e; exact hq ha
      have h2 : a ≠ .cfg q := by intro e; subst e; exact hq ha
      rw [if_neg h1, if_neg h2]
      show (if CleanPath s.rootName q then _ else _) = (if CleanPath s.rootName q then _ else _)
      rw [if_neg hq, if_neg hq]
  have hloc : (s.write r c).view.localConf = (s.view.put a c).localConf := by
    show ((s.write r c).confAt s.localConf).getD _ = _
    rw [confAt_write h]
    by_cases hl : s.localConf = r
    · have : a = .loc := hi.inj a .loc r ha trivial hr (by simp [place, hl])
      subst this
      rw [if_pos hl]; rfl
    · rw [if_neg hl]
      cases a with
      | loc => exfalso; simp [place] at hr; exact hl hr
      | item p => rfl
      | cfg p => rfl
      | root => rfl
  have hrest : (s.view.put a c).fs = s.fs ∧ (s.view.put a c).rootName = s.rootName := by
    cases a <;> exact ⟨rfl, rfl⟩
  have e1 : (s.write r c).view = ⟨(s.write r c).view.fs, (s.write r c).view.rootName, (s.write r c).view.localConf,
    (s.write r c).view.slot⟩ := rfl
  have e2 : s.view.put a c = ⟨(s.view.put a c).fs, (s.view.put a c).rootName, (s.view.put a c).localConf,
    (s.view.put a c).slot⟩ := rfl
  rw [e1, e2, hrest.1, hrest.2, hloc, funext hslot]
  rfl

theorem inv_write {s : HS V} (hi : HInv s) {r : Nat} {c0 : Conf V} (h : s.heap[r]? = some (.conf c0)) (c : Conf V) :
    HInv (s.write r c) := by
  refine (kept_write hi h c).inv hi (.inl rfl) ?_
  show ∃ c', (s.write r c).heap[s.localConf]? = _
  rw [write_get s r c (List.getElem?_eq_some_iff.1 h).1]
  by_cases hl : s.localConf = r
  · exact ⟨c, if_pos hl⟩
  · rw [if_neg hl]; exact hi.loc

theorem place_write {s : HS V} (hi : HInv s) {r : Nat} {c0 : Conf V} (h : s.heap[r]? = some (.conf c0)) (c : Conf V)
    (a : Place) (ha : a.Clean s.rootName) : (s.write r c).place a = s.place a := by
  by_cases hl : a = .loc
  · subst hl; rfl
  · exact (kept_write hi h c).place hi a ha hl

theorem inv_alloc {s : HS V} (hi : HInv s) (h : List (HObj V)) : HInv { s with heap := s.heap ++ h } := by
  refine (kept_alloc hi h).inv hi (.inl rfl) ?_
  obtain ⟨c, hc⟩ := hi.loc
  refine ⟨c, ?_⟩
  show (s.heap ++ h)[s.localConf]? = _
  rw [List.getElem?_append_left (List.getElem?_eq_some_iff.1 hc).1]
  exact hc

theorem place_alloc {s : HS V} (hi : HInv s) (h : List (HObj V)) (a : Place) (ha : a.Clean s.rootName) :
    HS.place { s with heap := s.heap ++ h } a = s.place a := by
  by_cases hl : a = .loc
  · subst hl; rfl
  · exact (kept_alloc hi h).place hi a ha hl

theorem confAt_alloc {s : HS V} (h : List (HObj V)) {r : Nat} (hr : r < s.heap.length) :
    HS.confAt { s with heap := s.heap ++ h } r = s.confAt r := by
  unfold confAt
  simp only [List.getElem?_append_left hr]

theorem slotAt_alloc {s : HS V} (h : List (HObj V)) {r : Nat} (hr : r < s.heap.length)
    (hc : ∀ k, s.cfgOf r = some k → k < s.heap.length) : HS.slotAt { s with heap := s.heap ++ h } r = s.slotAt r := by
  unfold slotAt cfgOf at *
  simp only [List.getElem?_append_left hr]
  cases ho : s.heap[r]? with
  | none => rfl
  | some o =>
    cases o with
    | conf c => rfl
    | file l => rfl
    | sect nm cfg attrs map =>
      rw [ho] at hc
      cases cfg with
      | none => rfl
      | some k =>
        simp only [Option.bind_some]
        rw [confAt_alloc h (hc k rfl)]

theorem view_alloc {s : HS V} (hi : HInv s) (h : List (HObj V)) : HS.view { s with heap := s.heap ++ h } = s.view := by
  unfold view
  congr 1
  · unfold lconf
    rw [confAt_alloc h (hi.bound .loc _ trivial rfl)]
  · funext q
    by_cases hq : CleanPath s.rootName q
    · simp only [if_pos hq]
      unfold hslot
      rw [(kept_alloc hi h).find q hq]
      cases hf : s.find q with
      | none => rfl
      | some v =>
        cases v with
        | mgr =>
          have := find_mgr hf
          subst this
          exact slotAt_alloc h (hi.bound .root _ trivial rfl) (fun k hk => hi.bound (.cfg []) k (CleanPath.nil _) hk)
        | ref r =>
          exact slotAt_alloc h (hi.find_bound hq hf) (fun k hk => hi.bound (.cfg q) k hq (by simp [place, hf, hk]))
        | none => rfl
        | other => rfl
    · simp only [if_neg hq]

theorem setattr_fs (s : HS V) (v : HVal) (x : String) (r : Nat) : (s.setattr v x r).fs = s.fs := by
  unfold setattr
  cases v with
  | mgr => dsimp only; split; rfl; split <;> rfl
  | ref k =>
    dsimp only
    split
    · split <;> rfl
    · rfl
  | none => rfl
  | other => rfl

theorem confAt_setattr (s : HS V) (v : HVal) (x : String) (r k : Nat) :
    (s.setattr v x r).confAt k = s.confAt k := by
  unfold setattr
  cases v with
  | mgr => dsimp only; split; rfl; split <;> rfl
  | none => rfl
  | other => rfl
  | ref k0 =>
    dsimp only
    have key : ∀ nm cfg attrs map cfg' attrs' map', s.heap[k0]? = some (.sect nm cfg attrs map) →
        HS.confAt { s with heap := s.heap.set k0 (.sect nm cfg' attrs' map') } k = s.confAt k := by
      intro nm cfg attrs map cfg' attrs' map' ho
      unfold confAt
      by_cases hk : k0 = k
      · subst hk
        simp only [List.getElem?_set_self (List.getElem?_eq_some_iff.1 ho).1, ho]
      · simp only [List.getElem?_set_ne hk]
    split
    · rename_i ho
      split
      · exact key _ _ _ _ _ _ _ ho
      · exact key _ _ _ _ _ _ _ ho
    · rfl

/-- Where a leaf was replaced. -/
theorem view_moved {s s' : HS V} {p : List String} {r' : Nat} {c : Conf V} (h : s.Moved s' p r') (hi : HInv s)
    (hfs : s'.fs = s.fs) (hconf : ∀ k, k < s.heap.length → s'.confAt k = s.confAt k) (hc : s'.confAt r' = some c) :
    s'.view = s.view.setConf p c := by
  unfold view View.setConf
  rw [hfs]
  simp only [h.rootName]
  congr 1
  · unfold lconf
    rw [h.localConf, hconf _ (hi.bound .loc _ trivial rfl)]
  · funext q
    by_cases hqp : q = p
    · rw [if_pos hqp]
      subst hqp
      rw [if_pos h.clean]
      unfold hslot
      rw [h.find _ h.clean, if_pos rfl]
      simp only [slotAt, confAt_some.1 hc]
    · rw [if_neg hqp]
      by_cases hq : CleanPath s.rootName q
      · rw [if_pos hq, if_pos hq]
        unfold hslot
        rw [h.find _ hq, if_neg hqp]
        have key : ∀ k, k < s.heap.length → (∀ j, s.cfgOf k = some j → j < s.heap.length) → s'.slotAt k = s.slotAt k := by
          intro k hk hj
          have hcf := hconf k hk
          unfold slotAt
          rcases h.similar k hk with (hs | ⟨nm, c1, a1, a2, m, h1, h2⟩) | ⟨⟨c, h1⟩, c', h2⟩
          · rw [hs]
            cases ho : s.heap[k]? with
            | none => rfl
            | some o =>
              cases o with
              | conf c => rfl
              | file l => rfl
              | sect nm cfg attrs map =>
                cases cfg with
                | none => rfl
                | some j =>
                  simp only [Option.bind_some]
                  rw [hconf j (hj j (by simp [cfgOf, ho]))]
          · rw [h1, h2]
            cases c1 with
            | none => rfl
            | some j =>
              simp only [Option.bind_some]
              rw [hconf j (hj j (by simp [cfgOf, h1]))]
          · rw [confAt_some.2 h1, confAt_some.2 h2] at hcf
            rw [h1, h2]
            injection hcf with e
            simp [e]
        cases hf : s.find q with
        | none => rfl
        | some v =>
          cases v with
          | mgr =>
            have := find_mgr hf
            subst this
            simp only
            rw [h.section_]
            exact key _ (hi.bound .root _ trivial rfl) (fun k hk => hi.bound (.cfg []) k (CleanPath.nil _) hk)
          | ref r =>
            exact key _ (hi.find_bound hq hf) (fun k hk => hi.bound (.cfg q) k hq (by simp [place, hf, hk]))
          | none => rfl
          | other => rfl
      · rw [if_neg hq, if_neg hq]

theorem walk_of_find {s : HS V} {q : List String} {v : HVal} (h : s.find q = some v) : s.walk .mgr q = .ok v := by
  unfold find at h
  cases hw : s.walk .mgr q with
  | error e => rw [hw] at h; simp at h
  | ok v' =>
    rw [hw] at h
    cases v' <;> simp at h <;> rw [h]

theorem find_parent {s : HS V} {q : List String} {x : String} {v : HVal} (h : s.find (q ++ [x]) = some v) :
    ∃ v', s.find q = some v' := by
  rw [find_concat] at h
  cases hf : s.find q with
  | none => rw [hf] at h; simp at h
  | some v' => exact ⟨v', rfl⟩

/-- What a path to an item leads to. -/
theorem find_of_item {s : HS V} (hi : HInv s) {p : List String} (h : (s.hslot p).isItem = true) :
    ∃ r, s.find p = some (.ref r) ∧
      ((∃ c, s.heap[r]? = some (.conf c) ∧ s.hslot p = .conf c) ∨ ∃ l, s.heap[r]? = some (.file l) ∧ s.hslot p = .file l) := by
  unfold hslot at h ⊢
  cases hf : s.find p with
  | none => rw [hf] at h; simp [Slot.isItem] at h
  | some v =>
    rw [hf] at h
    cases v with
    | mgr =>
      exfalso
      obtain ⟨cfg, attrs, map, hs⟩ := hi.root
      simp [slotAt, hs, Slot.isItem] at h
    | ref r =>
      refine ⟨r, rfl, ?_⟩
      simp only at h ⊢
      unfold slotAt at h ⊢
      cases ho : s.heap[r]? with
      | none => rw [ho] at h; simp [Slot.isItem] at h
      | some o =>
        rw [ho] at h
        cases o with
        | conf c => exact .inl ⟨c, rfl, rfl⟩
        | file l => exact .inr ⟨l, rfl, rfl⟩
        | sect nm cfg attrs map => simp [Slot.isItem] at h
    | none => simp [Slot.isItem] at h
    | other => simp [Slot.isItem] at h

/-- What a path to a section leads to. -/
theorem find_of_sect {s : HS V} (hi : HInv s) {p : List String} {cfg : Option (Conf V)} (hp : CleanPath s.rootName p)
    (h : s.hslot p = .sect cfg) :
    ∃ nm rc attrs map, ((p = [] ∧ s.heap[s.section_]? = some (.sect nm rc attrs map)) ∨
      ∃ r, s.find p = some (.ref r) ∧ s.heap[r]? = some (.sect nm rc attrs map)) ∧
      s.place (.cfg p) = rc ∧ cfg = rc.bind s.confAt := by
  unfold hslot at h
  cases hf : s.find p with
  | none => rw [hf] at h; simp at h
  | some v =>
    rw [hf] at h
    cases v with
    | mgr =>
      have := find_mgr hf
      subst this
      obtain ⟨rc, attrs, map, hs⟩ := hi.root
      simp [slotAt, hs] at h
      exact ⟨_, rc, attrs, map, .inl ⟨rfl, hs⟩, by simp [place, hf, cfgOf, hs], h.symm⟩
    | ref r =>
      simp only [slotAt] at h
      cases ho : s.heap[r]? with
      | none => rw [ho] at h; simp at h
      | some o =>
        rw [ho] at h
        cases o with
        | conf c => simp at h
        | file l => simp at h
        | sect nm rc attrs map =>
          simp at h
          exact ⟨nm, rc, attrs, map, .inr ⟨r, rfl, ho⟩, by simp [place, hf, cfgOf, ho], h.symm⟩
    | none => simp at h
    | other => simp at h

theorem obj_of {s : HS V} {r : Nat} {o : HObj V} (h : s.heap[r]? = some o) : s.obj r = .ok o := by
  unfold obj; rw [h]

end HS

namespace HM

/-- Storing a config at the place of a leaf. -/
theorem setAt_run {s : HS V} (hi : HInv s) {p : List String} (hp : CleanPath s.rootName p) {r r' : Nat} {c : Conf V}
    (hf : s.find p = some (.ref r)) (hl : s.Leaf r) (hc : s.heap[r']? = some (.conf c)) :
    ∃ s', HM.setAt p r' s = (.ok (), s') ∧ s.Moved s' p r' ∧ s'.view = s.view.setConf p c ∧ (∀ k, s'.confAt k = s.confAt k) := by
  have hne : p ≠ [] := by intro h; subst h; rw [HS.find_nil] at hf; cases hf
  have hcat := List.dropLast_concat_getLastD hne
  have hf' := hf
  have hp' := hp
  rw [← hcat] at hf' hp'
  obtain ⟨v, hv⟩ := HS.find_parent hf'
  have hm := HS.moved_setattr hi hp' hf' hl (.inl ⟨c, hc⟩) hv
  rw [hcat] at hm
  refine ⟨s.setattr v (p.getLast?.getD "") r', ?_, hm, ?_, HS.confAt_setattr s v _ r'⟩
  · unfold HM.setAt
    rw [M.bind_ok (M.get_run s), M.bind_run, M.liftE_run, HS.walk_of_find hv]
    rfl
  · exact HS.view_moved hm hi (HS.setattr_fs _ _ _ _) (fun k _ => HS.confAt_setattr _ _ _ _ _)
      (by rw [HS.confAt_setattr]; exact HS.confAt_some.2 hc)

/-- The config of an item, loaded if it was not. -/
structure Loaded (s s' : HS V) (p : List String) (r : Nat) (c : Conf V) : Prop where
  inv : HInv s'
  rootName : s'.rootName = s.rootName
  place : s'.place (.item p) = some r
  conf : s'.heap[r]? = some (.conf c)
  view : s'.view = s.view.setConf p c
  others : ∀ a, a.Clean s.rootName → a ≠ .item p → s'.place a = s.place a
  same : ∀ c0, s.hslot p = .conf c0 → s.place (.item p) = some r
  length : s.heap.length ≤ s'.heap.length
  fresh : (∀ c0, s.hslot p ≠ .conf c0) → s.heap.length ≤ r
  confs : ∀ (k : Nat) (c' : Conf V), s.heap[k]? = some (.conf c') → s'.heap[k]? = some (.conf c')

theorem getRef_item {s : HS V} (hi : HInv s) {p : List String} (hp : CleanPath s.rootName p)
    (h : (s.hslot p).isItem = true) : match s.view.own p with
      | .error e => HM.getRef p s = (.error e, s)
      | .ok c => ∃ r s', HM.getRef p s = (.ok (some r), s') ∧ Loaded s s' p r c := by
  obtain ⟨r, hf, ho⟩ := HS.find_of_item hi h
  have hw := HS.walk_of_find hf
  rcases ho with ⟨c, ho, hs⟩ | ⟨l, ho, hs⟩
  · have hown : s.view.own p = .ok c := by
      unfold View.own
      rw [HS.view_slot hp, hs]
    rw [hown]
    obtain ⟨s', h1, h2, h3, h4⟩ := setAt_run hi hp hf (.inl ⟨c, ho⟩) ho
    have hpl : s.place (.item p) = some r := by simp [HS.place, hf]
    refine ⟨r, s', ?_, h2.inv hi (fun a ha hr => hi.inj a (.item p) r ha hp hr hpl), h2.rootName, ?_,
      HS.confAt_some.1 (by rw [h4]; exact HS.confAt_some.2 ho), h3, ?_, ?_, h2.length, ?_,
      fun k c' hk => HS.confAt_some.1 (by rw [h4]; exact HS.confAt_some.2 hk)⟩
    · unfold HM.getRef
      rw [M.bind_ok (M.get_run s), M.bind_run, M.liftE_run, hw]
      simp only
      rw [M.bind_run, M.liftE_run, HS.obj_of ho]
      simp only
      rw [M.bind_ok h1]
      rfl
    · rw [h2.place hi (.item p) hp, if_pos rfl]
    · intro a ha hne; rw [h2.place hi _ ha, if_neg hne]
    · intro _ _; exact hpl
    · intro hn; exact absurd hs (hn c)
  · have hown : s.view.own p = s.fs.load l := by
      unfold View.own
      rw [HS.view_slot hp, hs]
      rfl
    rw [hown]
    cases hload : s.fs.load l with
    | error e =>
      simp only
      unfold HM.getRef
      rw [M.bind_ok (M.get_run s), M.bind_run, M.liftE_run, hw]
      simp only
      rw [M.bind_run, M.liftE_run, HS.obj_of ho]
      simp only
      rw [M.bind_run, M.liftE_run, hload]
    | ok c =>
      simp only
      let s1 : HS V := { s with heap := s.heap ++ [.conf c] }
      have hi1 : HInv s1 := HS.inv_alloc hi _
      have hk1 := HS.kept_alloc hi [HObj.conf c]
      have hf1 : s1.find p = some (.ref r) := by rw [hk1.find p hp]; exact hf
      have hb : r < s.heap.length := (List.getElem?_eq_some_iff.1 ho).1
      have hl1 : s1.Leaf r := .inr ⟨l, by show (s.heap ++ _)[r]? = _; rw [List.getElem?_append_left hb]; exact ho⟩
      have hc1 : s1.heap[s.heap.length]? = some (.conf c) := by
        show (s.heap ++ [HObj.conf c])[s.heap.length]? = _
        simp
      obtain ⟨s', h1, h2, h3, h4⟩ := setAt_run hi1 (p := p) hp hf1 hl1 hc1
      refine ⟨s.heap.length, s', ?_, ?_, h2.rootName, ?_, HS.confAt_some.1 (by rw [h4]; exact HS.confAt_some.2 hc1), ?_, ?_, ?_, ?_, fun _ => Nat.le_refl _, ?_⟩
      · unfold HM.getRef
        rw [M.bind_ok (M.get_run s), M.bind_run, M.liftE_run, hw]
        simp only
        rw [M.bind_run, M.liftE_run, HS.obj_of ho]
        simp only
        rw [M.bind_run, M.liftE_run, hload]
        simp only
        rw [M.bind_ok (M.modify_run _ _)]
        show (HM.setAt p s.heap.length >>= _) s1 = _
        rw [M.bind_ok h1]
        rfl
      · refine h2.inv hi1 ?_
        intro a ha hr
        have := HS.place_alloc hi [HObj.conf c] a ha
        rw [this] at hr
        have := hi.bound a _ ha hr
        omega
      · rw [h2.place hi1 (.item p) hp, if_pos rfl]
      · rw [h3, HS.view_alloc hi]
      · intro a ha hne
        rw [h2.place hi1 _ ha, if_neg hne]
        exact HS.place_alloc hi _ a ha
      · intro c0 hs0; rw [hs] at hs0; cases hs0
      · have := h2.length
        have e : s1.heap.length = s.heap.length + 1 := by simp [s1]
        omega
      · intro k c' hk
        refine HS.confAt_some.1 ?_
        rw [h4]
        refine HS.confAt_some.2 ?_
        show (s.heap ++ [HObj.conf c])[k]? = _
        rw [List.getElem?_append_left (List.getElem?_eq_some_iff.1 hk).1]
        exact hk

theorem getRef_sect {s : HS V} (hi : HInv s) {p : List String} (hp : CleanPath s.rootName p) (hne : p ≠ [])
    {cfg : Option (Conf V)} (h : s.hslot p = .sect cfg) : HM.getRef p s = (.ok (s.place (.cfg p)), s) := by
  obtain ⟨nm, rc, attrs, map, ho, hpl, -⟩ := HS.find_of_sect hi hp h
  rcases ho with ⟨e, -⟩ | ⟨r, hf, ho⟩
  · exact absurd e hne
  · unfold HM.getRef
    rw [M.bind_ok (M.get_run s), M.bind_run, M.liftE_run, HS.walk_of_find hf]
    simp only
    rw [M.bind_run, M.liftE_run, HS.obj_of ho, hpl]
    rfl

end HM

/-! ### The calls on a config -/

/-- The config that a call is about. -/
inductive HS.Target (s : HS V) : Option (List String) → Place → Prop where
  | item {p : List String} : CleanPath s.rootName p → (s.hslot p).isItem = true → Target s (some p) (.item p)
  | sect {p : List String} {cfg : Option (Conf V)} : CleanPath s.rootName p → p ≠ [] → s.hslot p = .sect cfg →
    Target s (some p) (.cfg p)
  | loc : Target s none .loc

theorem HS.Target.clean {s : HS V} {p pl} (h : s.Target p pl) : pl.Clean s.rootName := by
  cases h with
  | item hp _ => exact hp
  | sect hp _ _ => exact hp
  | loc => trivial

/-- The config at a place, read from its file if it has not been loaded. -/
def View.ownAt (a : View V) : Place → Except PyErr (Option (Conf V))
  | .item p => match a.own p with
    | .ok c => .ok (some c)
    | .error e => .error e
  | .cfg p => .ok (a.sectCfg p)
  | .loc => .ok (some a.localConf)
  | .root => .ok none

theorem View.put_put (a : View V) (pl : Place) (c c' : Conf V) : (a.put pl c).put pl c' = a.put pl c' := by
  cases pl with
  | item p => exact View.setConf_setConf a p c c'
  | cfg p =>
    simp only [View.put]
    congr 1
    funext q
    by_cases hq : q = p <;> simp [hq]
  | loc => rfl
  | root => rfl

/-- After a call on the config at a place: it is the object `r` with the contents `c`, and nothing else has changed. -/
structure HS.Done (s s' : HS V) (pl : Place) (r : Nat) (c : Conf V) : Prop where
  inv : HInv s'
  fs : s'.fs = s.fs
  rootName : s'.rootName = s.rootName
  place : s'.place pl = some r
  conf : s'.heap[r]? = some (.conf c)
  view : s'.view = s.view.put pl c
  others : ∀ a, a.Clean s.rootName → a ≠ pl → s'.place a = s.place a
  same : (∀ p l, pl = .item p → s.hslot p ≠ .file l) → s.place pl = some r
  length : s.heap.length ≤ s'.heap.length
  fresh : (∃ p l, pl = .item p ∧ s.hslot p = .file l) → s.heap.length ≤ r
  confs : ∀ (k : Nat) (c' : Conf V), s.heap[k]? = some (.conf c') → k ≠ r → s'.heap[k]? = some (.conf c')

theorem HS.Done.write {s s' : HS V} {pl : Place} {r : Nat} {c : Conf V} (h : s.Done s' pl r c) (hcl : pl.Clean s.rootName)
    (c' : Conf V) : s.Done (s'.write r c') pl r c' := by
  have hcl' : pl.Clean s'.rootName := by rw [h.rootName]; exact hcl
  refine ⟨HS.inv_write h.inv h.conf c', h.fs, h.rootName, ?_, ?_, ?_, ?_, h.same, ?_, h.fresh, ?_⟩
  · rw [HS.place_write h.inv h.conf c' pl hcl']; exact h.place
  · rw [HS.write_get _ _ _ (List.getElem?_eq_some_iff.1 h.conf).1, if_pos rfl]
  · rw [HS.view_write h.inv hcl' h.place h.conf, h.view, View.put_put]
  · intro a ha hne
    rw [HS.place_write h.inv h.conf c' a (by rw [h.rootName]; exact ha)]
    exact h.others a ha hne
  · simp only [HS.write, List.length_set]; exact h.length
  · intro k c0 hk hne
    rw [HS.write_get _ _ _ (List.getElem?_eq_some_iff.1 h.conf).1, if_neg hne]
    exact h.confs k c0 hk hne

theorem HS.write_self {s : HS V} {r : Nat} {c : Conf V} (h : s.heap[r]? = some (.conf c)) : s.write r c = s := by
  unfold HS.write
  have : s.heap.set r (.conf c) = s.heap := by
    obtain ⟨hb, he⟩ := List.getElem?_eq_some_iff.1 h
    rw [← he]
    exact List.set_getElem_self hb
  rw [this]

/-- What is loaded when a call begins. -/
theorem HM.target_run {s : HS V} (hi : HInv s) {p : Option (List String)} {pl : Place} (ht : s.Target p pl) :
    match s.view.ownAt pl with
    | .error e => HM.getProjectOrLocal p s = (.error e, s)
    | .ok none => HM.getProjectOrLocal p s = (.ok none, s)
    | .ok (some c) => ∃ r s', HM.getProjectOrLocal p s = (.ok (some r), s') ∧ s.Done s' pl r c := by
  cases ht with
  | @item p hp h =>
    have hg := HM.getRef_item hi hp h
    simp only [View.ownAt]
    cases hown : s.view.own p with
    | error e => rw [hown] at hg; exact hg
    | ok c =>
      rw [hown] at hg
      obtain ⟨r, s', h1, h2⟩ := hg
      refine ⟨r, s', h1, h2.inv, ?_, h2.rootName, h2.place, h2.conf, h2.view, h2.others, ?_, h2.length, ?_, fun k c' hk _ => h2.confs k c' hk⟩
      · exact congrArg View.fs h2.view
      · intro hnf
        obtain ⟨r0, -, ⟨c0, -, hs⟩ | ⟨l, -, hs⟩⟩ := HS.find_of_item hi h
        · exact h2.same c0 hs
        · exact absurd hs (hnf p l rfl)
      · rintro ⟨q, l, he, hs⟩
        cases he
        exact h2.fresh (fun c0 => by rw [hs]; simp)
  | @sect p cfg hp hne h =>
    have hg := HM.getRef_sect hi hp hne h
    obtain ⟨nm, rc, attrs, map, ho, hpl, hcfg⟩ := HS.find_of_sect hi hp h
    unfold View.ownAt
    have hsc : s.view.sectCfg p = cfg := by unfold View.sectCfg; rw [HS.view_slot hp, h]
    simp only [hsc]
    rw [hpl] at hg
    cases rc with
    | none => rw [hcfg]; exact hg
    | some r =>
      obtain ⟨c, hc⟩ := hi.cfg p r hp hpl
      rw [hcfg]
      simp only [Option.bind_some, HS.confAt_some.2 hc]
      refine ⟨r, s, hg, hi, rfl, rfl, hpl, hc, ?_, fun _ _ _ => rfl, fun _ => hpl, Nat.le_refl _, ?_, fun _ _ hk _ => hk⟩
      · have hw := HS.view_write hi (a := .cfg p) hp hpl hc c
        rw [HS.write_self hc] at hw
        exact hw
      · rintro ⟨q, l, he, -⟩; cases he
  | loc =>
    unfold View.ownAt
    obtain ⟨c, hc⟩ := hi.loc
    have hl : s.view.localConf = c := by
      show (s.confAt s.localConf).getD _ = _
      rw [HS.confAt_some.2 hc]; rfl
    refine ⟨s.localConf, s, rfl, hi, rfl, rfl, rfl, by rw [hl]; exact hc, rfl, fun _ _ _ => rfl, fun _ => rfl, Nat.le_refl _, ?_, fun _ _ hk _ => hk⟩
    rintro ⟨q, l, he, -⟩; cases he

/-- What `update` does to a config. -/
def kUpdate [BEq V] (d : Option (Dict String V)) (persist : Bool) (kw : Dict String V) (c : Conf V) :
    Except PyErr Bool × Conf V :=
  match CMM.determineWouldUpdate c d kw with
  | .error e => (.error e, c)
  | .ok false => (.ok false, c)
  | .ok true => if Conf.clash Conf.updateReserved kw then (.error .typeError, c) else (.ok true, c.update d persist kw)

/-- What `refresh` does to a config. -/
def kRefresh [BEq V] (fs : Files V) (c : Conf V) : Except PyErr (Bool × Dict String V) × Conf V :=
  match c.file with
  | none => (.error .attributeError, c)
  | some loc => match fs.load loc with
    | .error e => (.error e, c)
    | .ok new =>
      if (c.changeFromRefresh new.values).items.isEmpty then (.ok (false, Dict.empty), c)
      else match c.refresh new.values with
        | .error e => (.error e, c)
        | .ok (c', updates) => (.ok (true, updates), c')

/-- What `pop` does to a config. -/
def kPop (key : String) (c : Conf V) : Except PyErr V × Conf V :=
  match c.values.get? key with
  | none => (.error .keyError, c)
  | some v => (.ok v, { c with values := c.values.del key })

namespace HM
variable {s s1 : HS V} {r : Nat} {c : Conf V} {p : Option (List String)}

theorem deref_run (h : s.heap[r]? = some (.conf c)) : HM.deref r s = (.ok c, s) := by
  unfold HM.deref
  rw [M.bind_ok (M.get_run s), h]
  rfl

theorem update_run [BEq V] (hg : getProjectOrLocal p s = (.ok (some r), s1)) (hc : s1.heap[r]? = some (.conf c))
    (d : Option (Dict String V)) (persist : Bool) (kw : Dict String V) : HM.update d p persist kw s =
      ((kUpdate d persist kw c).1.map (fun b => (r, b)), s1.write r (kUpdate d persist kw c).2) := by
  unfold HM.update
  rw [M.bind_ok hg]
  simp only
  rw [M.bind_ok (deref_run hc), M.bind_run, M.liftE_run]
  unfold kUpdate
  cases CMM.determineWouldUpdate c d kw with
  | error e => simp only [HS.write_self hc]; rfl
  | ok b =>
    cases b with
    | false => simp only [HS.write_self hc]; rfl
    | true =>
      simp only [if_true]
      split
      · simp only [HS.write_self hc]; rfl
      · rw [M.bind_ok (M.modify_run _ _)]; rfl

theorem newConfig_run (c : Conf V) : HM.newConfigFromFile c s =
    ((match c.file with | none => .error .attributeError | some loc => s.fs.load loc), s) := by
  unfold HM.newConfigFromFile
  rw [M.bind_ok (M.get_run s)]
  cases c.file with
  | none => rfl
  | some loc => rfl

theorem refresh_run [BEq V] {p : List String} (hg : getProjectOrLocal (some p) s = (.ok (some r), s1))
    (hc : s1.heap[r]? = some (.conf c)) : HM.refresh p s =
      ((kRefresh s1.fs c).1.map (fun b => (r, b)), s1.write r (kRefresh s1.fs c).2) := by
  unfold HM.refresh
  rw [M.bind_ok hg]
  simp only
  rw [M.bind_ok (deref_run hc), M.bind_run, newConfig_run]
  unfold kRefresh
  cases hf : c.file with
  | none => simp only [HS.write_self hc]; rfl
  | some loc =>
    simp only
    cases hl : s1.fs.load loc with
    | error e => simp only [HS.write_self hc]; rfl
    | ok new =>
      simp only
      split
      · simp only [HS.write_self hc]; rfl
      · rw [M.bind_run, newConfig_run, hf]
        simp only [hl]
        cases c.refresh new.values with
        | error e => simp only [HS.write_self hc]; rfl
        | ok x => rfl

theorem pop_run (hg : getProjectOrLocal p s = (.ok (some r), s1)) (hc : s1.heap[r]? = some (.conf c)) (key : String) :
    HM.pop key p s = ((kPop key c).1, s1.write r (kPop key c).2) := by
  unfold HM.pop
  rw [M.bind_ok hg]
  simp only
  rw [M.bind_ok (deref_run hc)]
  unfold kPop
  cases c.values.get? key with
  | none => simp only [HS.write_self hc]; rfl
  | some v => rfl

/-! ### `get` -/

theorem override1_none (hc : s.heap[r]? = some (.conf c)) :
    HM.override1 r none s = (.ok (), s.write r (CMM.applyLevel c none)) := by
  unfold HM.override1
  rw [M.bind_ok (deref_run hc)]
  rfl

theorem override1_some (hc : s.heap[r]? = some (.conf c)) {k : Nat} {l : Conf V} (hk : s.heap[k]? = some (.conf l)) :
    HM.override1 r (some k) s = (.ok (), s.write r (c.update (some l.values) true Dict.empty)) := by
  unfold HM.override1
  rw [M.bind_ok (deref_run hc)]
  simp only
  rw [M.bind_ok (deref_run hk)]
  rfl

theorem write_write (s : HS V) (r : Nat) (c c' : Conf V) : (s.write r c).write r c' = s.write r c' := by
  unfold HS.write
  simp

/-- A level as an object and as a config: the same object if and only if the same file. -/
def LevelOK (s : HS V) (r : Nat) (file : Option FileLoc) : Option Nat → Option (Conf V) → Prop
  | none, l => l = none
  | some k, l => ∃ lc, l = some lc ∧
    ((k = r ∧ lc.file.isSome ∧ lc.file = file) ∨
      (k ≠ r ∧ s.heap[k]? = some (.conf lc) ∧ ¬ (lc.file.isSome ∧ lc.file = file)))

theorem applyLevel_file (c : Conf V) (l : Option (Conf V)) : (CMM.applyLevel c l).file = c.file := by
  cases l with
  | none => rfl
  | some l =>
    unfold CMM.applyLevel
    simp only
    split <;> rfl

theorem overrideAll_run (ls : List (Option Nat)) (g : Option Nat → Option (Conf V)) :
    ∀ (s : HS V) (c : Conf V), s.heap[r]? = some (.conf c) → (∀ l ∈ ls, LevelOK s r c.file l (g l)) →
    HM.overrideAll r ls s = (.ok (), s.write r ((ls.map g).foldl CMM.applyLevel c)) := by
  induction ls with
  | nil =>
    intro s c hc _
    simp only [List.map_nil, List.foldl_nil, HS.write_self hc]
    rfl
  | cons l ls ih =>
    intro s c hc h
    have hb : r < s.heap.length := (List.getElem?_eq_some_iff.1 hc).1
    have h1 : HM.override1 r l s = (.ok (), s.write r (CMM.applyLevel c (g l))) := by
      have hl := h l (by simp)
      cases l with
      | none =>
        rw [show g none = none from hl]
        exact override1_none hc
      | some k =>
        obtain ⟨lc, hlc, ⟨hk, hf1, hf2⟩ | ⟨hk, hh, hf⟩⟩ := hl
        · subst hk
          rw [override1_some hc hc, hlc]
          unfold CMM.applyLevel
          simp only
          rw [if_pos ⟨hf1, hf2⟩]
        · rw [override1_some hc hh, hlc]
          unfold CMM.applyLevel
          simp only
          rw [if_neg hf]
    unfold HM.overrideAll
    rw [M.bind_ok h1]
    have hih := ih (s.write r (CMM.applyLevel c (g l))) (CMM.applyLevel c (g l))
      (by rw [HS.write_get _ _ _ hb, if_pos rfl]) (by
        intro l' hl'
        have := h l' (by simp [hl'])
        rw [applyLevel_file]
        cases l' with
        | none => exact this
        | some k =>
          obtain ⟨lc, hlc, h' | ⟨hk, hh, hf⟩⟩ := this
          · exact ⟨lc, hlc, .inl h'⟩
          · exact ⟨lc, hlc, .inr ⟨hk, by rw [HS.write_get _ _ _ hb, if_neg hk]; exact hh, hf⟩⟩)
    rw [hih, write_write]
    simp

/-- The sections around, from the inside. -/
theorem sectionRefs_run (hi : HInv s) (rest : List String) : ∀ (pre : List String) (x : String), pre ≠ [] →
    CleanPath s.rootName (pre ++ rest) →
    (∀ k, k < rest.length → ∃ cfg, s.hslot (pre ++ rest.take k) = .sect cfg) →
    (s.hslot (pre ++ rest)).isItem = true ∨ (∃ cfg, s.hslot (pre ++ rest) = .sect cfg) →
    HM.sectionRefsFrom pre (x :: rest) s = (.ok ((List.range rest.length).map (fun k => s.place (.cfg (pre ++ rest.take k))) ++
      (if (s.hslot (pre ++ rest)).isItem then [] else [s.place (.cfg (pre ++ rest))])), s) := by
  induction rest with
  | nil =>
    intro pre x hne hcl _ hlast
    simp only [List.append_nil] at hcl hlast
    simp only [List.append_nil, List.length_nil, List.range_zero, List.map_nil, List.nil_append]
    rw [HM.sectionRefsFrom, M.bind_ok (M.get_run s), M.bind_run, M.liftE_run]
    rcases hlast with hl | ⟨cfg, hl⟩
    · obtain ⟨r, hf, ho⟩ := HS.find_of_item hi hl
      rw [HS.walk_of_find hf, if_pos hl]
      simp only
      rw [M.bind_run, M.liftE_run]
      rcases ho with ⟨c, ho, -⟩ | ⟨l, ho, -⟩
      · rw [HS.obj_of ho]; rfl
      · rw [HS.obj_of ho]; rfl
    · obtain ⟨nm, rc, attrs, map, ho, hpl, -⟩ := HS.find_of_sect hi hcl hl
      rcases ho with ⟨e, -⟩ | ⟨r, hf, ho⟩
      · exact absurd e hne
      · rw [HS.walk_of_find hf, if_neg (by rw [hl]; simp [Slot.isItem])]
        simp only
        rw [M.bind_run, M.liftE_run, HS.obj_of ho]
        simp only
        rw [M.bind_ok (getRef_sect hi hcl hne hl)]
        rfl
  | cons y rest ih =>
    intro pre x hne hcl hsec hlast
    have happ : pre ++ y :: rest = (pre ++ [y]) ++ rest := by simp
    have hpre : CleanPath s.rootName pre := by
      have : ∀ (t : List String) (q : List String), CleanPath s.rootName (q ++ t) → CleanPath s.rootName q := by
        intro t
        induction t with
        | nil => intro q h; simpa using h
        | cons z t iht =>
          intro q h
          have := iht (q ++ [z]) (by simpa using h)
          exact (cleanPath_concat.1 this).1
      exact this _ _ hcl
    obtain ⟨cfg, hs0⟩ := hsec 0 (by simp)
    simp only [List.take_zero, List.append_nil] at hs0
    have hih := ih (pre ++ [y]) y (by simp) (by rw [← happ]; exact hcl) (by
      intro k hk
      have := hsec (k + 1) (by simp; omega)
      simpa using this) (by rw [← happ]; exact hlast)
    rw [HM.sectionRefsFrom, M.bind_ok (getRef_sect hi hpre hne hs0), M.bind_ok hih]
    rw [← happ, List.length_cons, List.range_succ_eq_map]
    simp [Function.comp_def]

end HM

/-- The configs that override the one at a place, before the local config. -/
def View.levelsAt (a : View V) : Place → List (Option (Conf V))
  | .item p => a.levels p
  | .cfg p => (List.range (p.length + 1)).map (fun k => a.sectCfg (p.take k))
  | _ => []

/-- What `get` does to a config. -/
def kGet (ls : List (Option (Conf V))) (c : Conf V) : Conf V :=
  if c.values.items.isEmpty then c else ls.foldl CMM.applyLevel c

/-- The file of the config at a place. -/
def Place.file : Place → Option FileLoc
  | .item p => some (.item p)
  | .cfg p => some (.sect p)
  | _ => none

theorem OwnFiles.put {a : View V} (h : OwnFiles a) {pl : Place} {c : Conf V} (hc : c.file = pl.file) :
    OwnFiles (a.put pl c) := by
  have hr : (a.put pl c).rootName = a.rootName := by cases pl <;> rfl
  refine ⟨?_, ?_, ?_, ?_⟩
  · intro p l hs hp
    rw [hr] at hp
    rw [View.put_slot] at hs
    split at hs
    · cases hs
    · split at hs
      · cases hs
      · exact h.file p l hs hp
  · intro p c' hs hp
    rw [hr] at hp
    rw [View.put_slot] at hs
    split at hs
    · rename_i e; cases hs; rw [hc, e]; rfl
    · split at hs
      · cases hs
      · exact h.conf p c' hs hp
  · intro p c' hs hp
    rw [hr] at hp
    rw [View.put_slot] at hs
    split at hs
    · cases hs
    · split at hs
      · rename_i e; cases hs; rw [hc, e]; rfl
      · exact h.sect p c' hs hp
  · cases pl with
    | loc => exact hc
    | item p => exact h.localConf
    | cfg p => exact h.localConf
    | root => exact h.localConf

theorem OwnFiles.ownAt_file {a : View V} (h : OwnFiles a) {pl : Place} (hp : pl.Clean a.rootName) {c : Conf V}
    (hc : a.ownAt pl = .ok (some c)) : c.file = pl.file := by
  cases pl with
  | item p =>
    simp only [View.ownAt] at hc
    cases ho : a.own p with
    | error e => rw [ho] at hc; cases hc
    | ok c' =>
      rw [ho] at hc
      cases hc
      unfold View.own at ho
      cases hs : a.slot p with
      | conf c0 => rw [hs] at ho; cases ho; exact h.conf p c hs hp.1
      | file l =>
        rw [hs] at ho
        have := h.file p l hs hp.1
        subst this
        exact Files.load_file ho
      | sect cfg => rw [hs] at ho; cases ho
      | absent => rw [hs] at ho; cases ho
  | cfg p =>
    simp only [View.ownAt, View.sectCfg] at hc
    cases hs : a.slot p with
    | sect cfg => rw [hs] at hc; cases hc; exact h.sect p c hs hp.1
    | conf c0 => rw [hs] at hc; cases hc
    | file c0 => rw [hs] at hc; cases hc
    | absent => rw [hs] at hc; cases hc
  | loc =>
    simp only [View.ownAt] at hc
    cases hc
    exact h.localConf
  | root => simp [View.ownAt] at hc

theorem View.levelsAt_put {a : View V} {pl : Place} {c : Conf V} (hc : a.ownAt pl = .ok (some c)) :
    (a.put pl c).levelsAt pl = a.levelsAt pl := by
  cases pl with
  | item p =>
    unfold View.levelsAt View.levels
    apply List.map_congr_left
    intro k hk
    rw [List.mem_range] at hk
    have hne : p.take k ≠ p := by
      intro e
      have := congrArg List.length e
      simp at this
      omega
    unfold View.sectCfg
    rw [View.put_slot, if_neg (by simp; exact fun e => hne e.symm), if_neg (by simp)]
  | cfg p =>
    unfold View.levelsAt
    apply List.map_congr_left
    intro k hk
    have hs : ∀ q, (a.put (.cfg p) c).sectCfg q = if q = p then some c else a.sectCfg q := by
      intro q
      unfold View.sectCfg
      rw [View.put_slot, if_neg (by simp)]
      by_cases h : q = p
      · subst h; rw [if_pos rfl, if_pos rfl]
      · rw [if_neg h, if_neg (by simp; exact fun e => h e.symm)]
    rw [hs]
    split
    · rename_i e
      rw [e]
      simp only [View.ownAt] at hc
      injection hc with hc
      exact hc.symm
    · rfl
  | loc => rfl
  | root => rfl

theorem CleanPath.prefix {rn : String} (t : List String) : ∀ (q : List String), CleanPath rn (q ++ t) → CleanPath rn q := by
  induction t with
  | nil => intro q h; simpa using h
  | cons z t ih =>
    intro q h
    exact (cleanPath_concat.1 (ih (q ++ [z]) (by simpa using h))).1

theorem HS.find_prefix {s : HS V} (t : List String) : ∀ (q : List String) {v : HVal}, s.find (q ++ t) = some v →
    ∃ v', s.find q = some v' := by
  induction t with
  | nil => intro q v h; exact ⟨v, by simpa using h⟩
  | cons z t ih =>
    intro q v h
    obtain ⟨v', h'⟩ := ih (q ++ [z]) (v := v) (by simpa using h)
    exact HS.find_parent h'

theorem HS.hslot_prefix {s : HS V} (hi : HInv s) {q : List String} {z : String} {t : List String} {v : HVal}
    (h : s.find (q ++ z :: t) = some v) : ∃ cfg, s.hslot q = .sect cfg := by
  obtain ⟨v1, h1⟩ := HS.find_prefix t (q ++ [z]) (v := v) (by simpa using h)
  rw [HS.find_concat] at h1
  unfold HS.hslot
  cases hf : s.find q with
  | none => rw [hf] at h1; cases h1
  | some w =>
    rw [hf] at h1
    simp only at h1
    cases w with
    | mgr =>
      obtain ⟨rc, attrs, map, hs⟩ := hi.root
      exact ⟨rc.bind s.confAt, by simp [HS.slotAt, hs]⟩
    | ref r =>
      obtain ⟨nm, rc, attrs, map, hs⟩ := HS.sect_of_child h1
      exact ⟨rc.bind s.confAt, by simp [HS.slotAt, hs]⟩
    | none => cases h1
    | other => cases h1

theorem HS.find_of_hslot {s : HS V} {p : List String} (h : s.hslot p ≠ .absent) : ∃ v, s.find p = some v := by
  unfold HS.hslot at h
  cases hf : s.find p with
  | none => rw [hf] at h; exact absurd rfl h
  | some v => exact ⟨v, rfl⟩

/-- The config of a section, as an object and as a config. -/
theorem HS.sectCfg_place {s : HS V} (hi : HInv s) {p : List String} (hp : CleanPath s.rootName p) {cfg : Option (Conf V)}
    (h : s.hslot p = .sect cfg) : s.view.sectCfg p = (s.place (.cfg p)).bind s.confAt := by
  obtain ⟨nm, rc, attrs, map, -, hpl, hcfg⟩ := HS.find_of_sect hi hp h
  unfold View.sectCfg
  rw [HS.view_slot hp, h, hpl]
  exact hcfg

/-- Whether two levels are the same object can be seen from their files. -/
theorem HS.levelOK {s : HS V} (hi : HInv s) (ho : OwnFiles s.view) {pl : Place} (hpl : pl.Clean s.rootName)
    (hnl : pl ≠ .loc) {r : Nat} {c : Conf V} (hr : s.place pl = some r) (hc : s.heap[r]? = some (.conf c))
    (hcf : c.file = pl.file) {q : List String} (hq : CleanPath s.rootName q) {cfg : Option (Conf V)}
    (hs : s.hslot q = .sect cfg) : HM.LevelOK s r c.file (s.place (.cfg q)) ((s.place (.cfg q)).bind s.confAt) := by
  cases hk : s.place (.cfg q) with
  | none => rfl
  | some k =>
    obtain ⟨lc, hlc⟩ := hi.cfg q k hq hk
    refine ⟨lc, by simp [HS.confAt_some.2 hlc], ?_⟩
    have hf : lc.file = some (.sect q) := by
      refine ho.sect q lc ?_ hq.1
      have := HS.sectCfg_place hi hq hs
      rw [hk, Option.bind_some, HS.confAt_some.2 hlc] at this
      unfold View.sectCfg at this
      rw [HS.view_slot hq, hs] at this
      rw [HS.view_slot hq, hs]
      simp only at this
      rw [this]
    by_cases hkr : k = r
    · left
      subst hkr
      rw [hlc] at hc
      cases hc
      exact ⟨rfl, by rw [hf]; rfl, rfl⟩
    · refine .inr ⟨hkr, hlc, ?_⟩
      rintro ⟨-, he⟩
      rw [hf, hcf] at he
      cases pl with
      | cfg p =>
        simp only [Place.file, Option.some.injEq, FileLoc.sect.injEq] at he
        subst he
        rw [hk] at hr
        cases hr
        exact hkr rfl
      | item p => simp [Place.file] at he
      | loc => simp [Place.file] at he
      | root => simp [Place.file] at he

theorem HM.projectRef_run {s : HS V} (hi : HInv s) : HM.projectRef s = (.ok (s.place (.cfg [])), s) := by
  obtain ⟨rc, attrs, map, hs⟩ := hi.root
  unfold HM.projectRef
  rw [M.bind_ok (M.get_run s), hs]
  simp only [HS.place, HS.find_nil, HS.cfgOf, hs]
  rfl

/-- `get` for an item or a section. -/
theorem HM.get_run {s : HS V} (hi : HInv s) (ho : OwnFiles s.view) {p : List String} {pl : Place}
    (ht : s.Target (some p) pl) : match s.view.ownAt pl with
    | .error e => HM.get p s = (.error e, s)
    | .ok none => HM.get p s = (.ok none, s)
    | .ok (some c) => ∃ r s', HM.get p s = (.ok (some r), s') ∧
        s.Done s' pl r (kGet (s.view.levelsAt pl ++ [some s.view.localConf]) c) := by
  have hcl := ht.clean
  have hrun := HM.target_run hi ht
  -- the paths on the way
  have hpc : CleanPath s.rootName p := by
    cases ht with
    | item hp _ => exact hp
    | sect hp _ _ => exact hp
  have hpn : p ≠ [] := by
    cases ht with
    | item hp h =>
      rintro rfl
      obtain ⟨rc, attrs, map, hs⟩ := hi.root
      simp [HS.hslot, HS.find_nil, HS.slotAt, hs, Slot.isItem] at h
    | sect _ hne _ => exact hne
  have hnl : pl ≠ .loc := by cases ht <;> simp
  obtain ⟨x, rest, rfl⟩ : ∃ x rest, p = x :: rest := by
    cases p with
    | nil => exact absurd rfl hpn
    | cons x rest => exact ⟨x, rest, rfl⟩
  -- the sections around, in a state where the config has been loaded
  have hrefs : ∀ s1 : HS V, HInv s1 → s1.rootName = s.rootName →
      ((s1.hslot (x :: rest)).isItem = true ∧ pl = .item (x :: rest) ∨
        (∃ cfg, s1.hslot (x :: rest) = .sect cfg) ∧ pl = .cfg (x :: rest)) →
      ∃ refs : List (Option Nat), HM.sectionRefsFrom ((x :: rest).take 1) (x :: rest) s1 = (.ok refs, s1) ∧
        (s1.place (.cfg []) :: refs).map (fun l => l.bind s1.confAt) = s1.view.levelsAt pl ∧
        ∀ l ∈ s1.place (.cfg []) :: refs, ∃ q, CleanPath s1.rootName q ∧ (∃ cfg, s1.hslot q = .sect cfg) ∧
          l = s1.place (.cfg q) := by
    intro s1 hi1 hrn hkind
    have hpc1 : CleanPath s1.rootName (x :: rest) := by rw [hrn]; exact hpc
    have hfound : ∃ v, s1.find (x :: rest) = some v := by
      apply HS.find_of_hslot
      rcases hkind with ⟨h, -⟩ | ⟨⟨cfg, h⟩, -⟩
      · intro e; rw [e] at h; simp [Slot.isItem] at h
      · rw [h]; simp
    obtain ⟨v, hv⟩ := hfound
    have htake : ∀ k, k ≤ (x :: rest).length → CleanPath s1.rootName ((x :: rest).take k) := by
      intro k _
      exact CleanPath.prefix ((x :: rest).drop k) _ (by rw [List.take_append_drop]; exact hpc1)
    have hsec : ∀ k, k < (x :: rest).length → ∃ cfg, s1.hslot ((x :: rest).take k) = .sect cfg := by
      intro k hk
      obtain ⟨z, t, hd⟩ : ∃ z t, (x :: rest).drop k = z :: t := by
        cases hdk : (x :: rest).drop k with
        | nil => have := List.length_drop (i := k) (l := x :: rest); rw [hdk] at this; simp at this; simp at hk; omega
        | cons z t => exact ⟨z, t, rfl⟩
      exact HS.hslot_prefix hi1 (z := z) (t := t) (v := v) (by rw [← hd, List.take_append_drop]; exact hv)
    have hr := HM.sectionRefs_run hi1 rest [x] x (by simp) hpc1 (by
      intro k hk
      have := hsec (k + 1) (by simp; omega)
      simpa using this) (by
      rcases hkind with ⟨h, -⟩ | ⟨h, -⟩
      · exact .inl h
      · exact .inr h)
    refine ⟨_, hr, ?_⟩
    have hcons : s1.place (.cfg []) :: ((List.range rest.length).map (fun k => s1.place (.cfg ([x] ++ rest.take k)))) =
        (List.range (x :: rest).length).map (fun k => s1.place (.cfg ((x :: rest).take k))) := by
      rw [List.length_cons, List.range_succ_eq_map]
      simp [Function.comp_def]
    rw [← List.cons_append, hcons]
    have hmap : ∀ k, k < (x :: rest).length → (s1.place (.cfg ((x :: rest).take k))).bind s1.confAt =
        s1.view.sectCfg ((x :: rest).take k) := by
      intro k hk
      obtain ⟨cfg, hs⟩ := hsec k hk
      exact (HS.sectCfg_place hi1 (htake k (by omega)) hs).symm
    rcases hkind with ⟨h, hpl⟩ | ⟨⟨cfg, h⟩, hpl⟩
    · rw [show [x] ++ rest = x :: rest from rfl, if_pos h, List.append_nil]
      constructor
      · rw [hpl, List.map_map]
        unfold View.levelsAt View.levels
        apply List.map_congr_left
        intro k hk
        rw [List.mem_range] at hk
        exact hmap k hk
      · intro l hl
        simp only [List.mem_map, List.mem_range] at hl
        obtain ⟨k, hk, rfl⟩ := hl
        exact ⟨_, htake k (by omega), hsec k hk, rfl⟩
    · rw [show [x] ++ rest = x :: rest from rfl, if_neg (by rw [h]; simp [Slot.isItem])]
      constructor
      · rw [hpl]
        simp only [View.levelsAt]
        rw [List.range_succ, List.map_append, List.map_append, List.map_map]
        congr 1
        · apply List.map_congr_left
          intro k hk
          rw [List.mem_range] at hk
          exact hmap k hk
        · simp only [List.map_cons, List.map_nil, List.take_length]
          rw [HS.sectCfg_place hi1 hpc1 h]
      · intro l hl
        rw [List.mem_append] at hl
        rcases hl with hl | hl
        · simp only [List.mem_map, List.mem_range] at hl
          obtain ⟨k, hk, rfl⟩ := hl
          exact ⟨_, htake k (by omega), hsec k hk, rfl⟩
        · simp at hl
          exact ⟨_, hpc1, ⟨cfg, h⟩, hl⟩
  cases hown : s.view.ownAt pl with
  | error e =>
    rw [hown] at hrun
    simp only at hrun ⊢
    unfold HM.get
    rw [M.bind_run, show HM.getRef (x :: rest) s = _ from hrun]
  | ok oc =>
    rw [hown] at hrun
    cases oc with
    | none =>
      simp only at hrun ⊢
      cases ht with
      | item hp h =>
        exfalso
        simp only [View.ownAt] at hown
        cases ho' : s.view.own (x :: rest) with
        | error e => rw [ho'] at hown; cases hown
        | ok c => rw [ho'] at hown; cases hown
      | sect hp hne h =>
        obtain ⟨refs, hr, -⟩ := hrefs s hi rfl (.inr ⟨⟨_, h⟩, rfl⟩)
        unfold HM.get
        rw [M.bind_ok (show HM.getRef (x :: rest) s = _ from hrun), M.bind_ok (HM.projectRef_run hi), M.bind_ok hr]
        rfl
    | some c =>
      simp only at hrun ⊢
      obtain ⟨r, s1, hg, hd⟩ := hrun
      have hown' : OwnFiles s1.view := by
        rw [hd.view]
        exact ho.put (ho.ownAt_file (a := s.view) hcl hown)
      have hcf : c.file = pl.file := ho.ownAt_file (a := s.view) hcl hown
      obtain ⟨refs, hr, hm, hl⟩ := hrefs s1 hd.inv hd.rootName (by
        have hv := hd.view
        cases ht with
        | item hp h =>
          left
          refine ⟨?_, rfl⟩
          have := congrArg (fun a => View.slot a (x :: rest)) hv
          simp only [View.put_slot, if_true] at this
          rw [HS.view_slot (by rw [hd.rootName]; exact hp)] at this
          rw [this]; rfl
        | sect hp hne h =>
          right
          refine ⟨⟨some c, ?_⟩, rfl⟩
          have := congrArg (fun a => View.slot a (x :: rest)) hv
          simp only [View.put_slot, if_true] at this
          rw [HS.view_slot (by rw [hd.rootName]; exact hp)] at this
          rw [this]; rfl)
      have hlev : s1.view.levelsAt pl = s.view.levelsAt pl := by rw [hd.view]; exact View.levelsAt_put hown
      have hlc : s1.view.localConf = s.view.localConf := by
        rw [hd.view]
        cases ht <;> rfl
      refine ⟨r, if c.values.items.isEmpty then s1 else s1.write r (kGet (s.view.levelsAt pl ++ [some s.view.localConf]) c), ?_, ?_⟩
      · unfold HM.get
        rw [M.bind_ok (show HM.getRef (x :: rest) s = _ from hg), M.bind_ok (HM.projectRef_run hd.inv), M.bind_ok hr]
        simp only
        rw [M.bind_ok (HM.deref_run hd.conf)]
        unfold kGet
        by_cases he : c.values.items.isEmpty = true
        · rw [if_pos he, if_pos he]; rfl
        · rw [if_neg he, if_neg he, if_neg he, M.bind_ok (M.get_run s1)]
          have hall := HM.overrideAll_run (r := r) ((s1.place (.cfg []) :: refs) ++ [some s1.localConf]) (fun l => l.bind s1.confAt)
            s1 c hd.conf (by
              intro l hl'
              rw [List.mem_append] at hl'
              rcases hl' with hl' | hl'
              · obtain ⟨q, hq, ⟨cfg, hs⟩, rfl⟩ := hl l hl'
                exact HS.levelOK hd.inv hown' (by rw [hd.rootName]; exact hcl) hnl hd.place hd.conf hcf hq hs
              · simp at hl'
                subst hl'
                obtain ⟨lc, hlcc⟩ := hd.inv.loc
                refine ⟨lc, by simp [HS.confAt_some.2 hlcc], .inr ⟨?_, hlcc, ?_⟩⟩
                · intro e
                  exact hnl (hd.inv.inj pl .loc r (by rw [hd.rootName]; exact hcl) trivial hd.place (by simp [HS.place, e]))
                · rintro ⟨h1, -⟩
                  have : s1.view.localConf = lc := by
                    show (s1.confAt s1.localConf).getD _ = _
                    rw [HS.confAt_some.2 hlcc]; rfl
                  have h2 := hown'.localConf
                  rw [this] at h2
                  rw [h2] at h1
                  cases h1)
          rw [M.bind_ok hall, List.map_append, hm, hlev]
          have : List.map (fun l => Option.bind l s1.confAt) [some s1.localConf] = [some s.view.localConf] := by
            obtain ⟨lc, hlcc⟩ := hd.inv.loc
            rw [← hlc]
            show [s1.confAt s1.localConf] = [some ((s1.confAt s1.localConf).getD _)]
            rw [HS.confAt_some.2 hlcc]; rfl
          rw [this]
          rfl
      · by_cases he : c.values.items.isEmpty = true
        · rw [if_pos he]
          unfold kGet
          rw [if_pos he]
          exact hd
        · rw [if_neg he]
          exact hd.write hcl _

/-! ### `reset` and changes of files -/

/-- After a reset: another object is at the place, and nothing else has changed. -/
structure HS.Replaced (s s' : HS V) (pl : Place) (r : Nat) (c : Conf V) : Prop where
  inv : HInv s'
  fs : s'.fs = s.fs
  rootName : s'.rootName = s.rootName
  place : s'.place pl = some r
  conf : s'.heap[r]? = some (.conf c)
  view : s'.view = s.view.put pl c
  others : ∀ a, a.Clean s.rootName → a ≠ pl → s'.place a = s.place a
  length : s.heap.length ≤ s'.heap.length
  fresh : s.heap.length ≤ r

/-- Nothing has changed. -/
structure HS.Still (s s' : HS V) : Prop where
  inv : HInv s'
  fs : s'.fs = s.fs
  rootName : s'.rootName = s.rootName
  view : s'.view = s.view
  place : ∀ a, a.Clean s.rootName → s'.place a = s.place a
  length : s.heap.length ≤ s'.heap.length

theorem HS.still_refl {s : HS V} (hi : HInv s) : s.Still s := ⟨hi, rfl, rfl, rfl, fun _ _ => rfl, Nat.le_refl _⟩

/-- `reset` of an item. -/
theorem HM.reset_run [BEq V] {s : HS V} (hi : HInv s) {p : List String} (hp : CleanPath s.rootName p)
    (h : (s.hslot p).isItem = true) : match s.fs.load (.item p) with
    | .error e => HM.reset (some p) false s = (.error e, s)
    | .ok v => match s.view.own p with
      | .error e => if e = .keyError
        then ∃ s', HM.reset (some p) false s = (.ok (s.heap.length, true), s') ∧ s.Replaced s' (.item p) s.heap.length v
        else ∃ s', HM.reset (some p) false s = (.error e, s') ∧ s.Still s'
      | .ok c => match CMM.determineWouldUpdate c none v.values with
        | .error e => ∃ r s', HM.reset (some p) false s = (.error e, s') ∧ s.Done s' (.item p) r c
        | .ok true => ∃ s', HM.reset (some p) false s = (.ok (s.heap.length, true), s') ∧
            s.Replaced s' (.item p) s.heap.length v
        | .ok false => ∃ r s', HM.reset (some p) false s = (.ok (s.heap.length, false), s') ∧ s.Done s' (.item p) r c ∧
            s'.heap[s.heap.length]? = some (.conf v) := by
  obtain ⟨r, hf, hobj⟩ := HS.find_of_item hi h
  have hw := HS.walk_of_find hf
  have hdef : HM.getDefault p false s = match s.fs.load (.item p) with
      | .error e => (.error e, s)
      | .ok v => (.ok s.heap.length, { s with heap := s.heap ++ [.conf v] }) := by
    unfold HM.getDefault
    rw [M.bind_ok (M.get_run s)]
    simp only [hw]
    rcases hobj with ⟨c, ho, -⟩ | ⟨l, ho, -⟩
    · rw [HS.obj_of ho, M.bind_run, M.liftE_run]
      simp only
      rw [M.bind_run, M.liftE_run]
      cases s.fs.load (.item p) with
      | error e => rfl
      | ok v => rfl
    · rw [HS.obj_of ho, M.bind_run, M.liftE_run]
      simp only
      rw [M.bind_run, M.liftE_run]
      cases s.fs.load (.item p) with
      | error e => rfl
      | ok v => rfl
  cases hl : s.fs.load (.item p) with
  | error e =>
    rw [hl] at hdef
    simp only at hdef ⊢
    show (HM.getDefault p false >>= fun v => HM.set p v false) s = _
    rw [M.bind_error hdef]
  | ok v =>
    rw [hl] at hdef
    simp only at hdef ⊢
    let s1 : HS V := { s with heap := s.heap ++ [.conf v] }
    have hi1 : HInv s1 := HS.inv_alloc hi _
    have hv1 : s1.view = s.view := HS.view_alloc hi _
    have hk1 := HS.kept_alloc hi [HObj.conf v]
    have hlen1 : s1.heap.length = s.heap.length + 1 := by simp [s1]
    have hf1 : s1.find p = some (.ref r) := by rw [hk1.find p hp]; exact hf
    have hb : r < s.heap.length := hi.find_bound hp hf
    have hc1 : s1.heap[s.heap.length]? = some (.conf v) := by
      show (s.heap ++ [HObj.conf v])[s.heap.length]? = _
      simp
    have hl1 : s1.Leaf r := by
      unfold HS.Leaf
      have : s1.heap[r]? = s.heap[r]? := List.getElem?_append_left hb
      rw [this]
      rcases hobj with ⟨c, ho, -⟩ | ⟨l, ho, -⟩
      · exact .inl ⟨c, ho⟩
      · exact .inr ⟨l, ho⟩
    have hslot1 : s1.hslot p = s.hslot p := by
      have e1 := HS.view_slot (s := s1) (q := p) hp
      have e2 := HS.view_slot (s := s) (q := p) hp
      rw [← e1, ← e2, hv1]
    have hpl1 : ∀ a, a.Clean s.rootName → s1.place a = s.place a := HS.place_alloc hi _
    have hstart : HM.reset (some p) false s = HM.set p s.heap.length false s1 := by
      show (HM.getDefault p false >>= fun v => HM.set p v false) s = _
      rw [M.bind_ok hdef]
    have hg := HM.getRef_item hi1 (p := p) hp (by rw [hslot1]; exact h)
    rw [hv1] at hg
    have hsame1 : ∀ pl r', pl.Clean s.rootName → s1.place pl = some r' → s.place pl = some r' :=
      fun pl r' hcl h' => by rw [← hpl1 pl hcl]; exact h'
    cases hown : s.view.own p with
    | error e =>
      rw [hown] at hg
      simp only at hg ⊢
      by_cases he : e = .keyError
      · rw [if_pos he]
        subst he
        obtain ⟨s', h1, h2, h3, h4⟩ := setAt_run hi1 (p := p) hp hf1 hl1 hc1
        refine ⟨s', ?_, ?_, ?_, h2.rootName, ?_, HS.confAt_some.1 (by rw [h4]; exact HS.confAt_some.2 hc1),
          by rw [h3, hv1]; rfl, ?_, ?_, Nat.le_refl _⟩
        · rw [hstart]
          unfold HM.set
          rw [M.bind_ok (a := none) (s' := s1) (by unfold M.tryCatch; rw [hg]; rfl)]
          simp only [Bool.false_eq_true, if_false]
          rw [M.bind_ok h1]
          rfl
        · refine h2.inv hi1 ?_
          intro a ha hr
          have := hi.bound a _ ha (hsame1 a _ ha hr)
          omega
        · exact congrArg View.fs h3
        · rw [h2.place hi1 (.item p) hp, if_pos rfl]
        · intro a ha hne
          rw [h2.place hi1 a ha, if_neg hne]
          exact hpl1 a ha
        · have := h2.length; omega
      · rw [if_neg he]
        refine ⟨s1, ?_, hi1, rfl, rfl, hv1, hpl1, by omega⟩
        rw [hstart]
        unfold HM.set
        rw [M.bind_error (s' := s1) (e := e) (by unfold M.tryCatch; rw [hg]; simp only [if_neg he]; rfl)]
    | ok c =>
      rw [hown] at hg
      simp only at hg ⊢
      obtain ⟨r2, s2, hg2, hL⟩ := hg
      have hv2 : s2.heap[s.heap.length]? = some (.conf v) := hL.confs _ _ hc1
      have hdone : s.Done s2 (.item p) r2 c := by
        refine ⟨hL.inv, ?_, hL.rootName, hL.place, hL.conf, ?_, ?_, ?_, ?_, ?_, ?_⟩
        · have := congrArg View.fs hL.view; exact this
        · rw [hL.view, hv1]; rfl
        · intro a ha hne; rw [hL.others a ha hne]; exact hpl1 a ha
        · intro hnf
          obtain ⟨r0, -, ⟨c0, -, hs⟩ | ⟨l, -, hs⟩⟩ := HS.find_of_item hi h
          · exact hsame1 _ _ hp (hL.same c0 (by rw [hslot1]; exact hs))
          · exact absurd hs (hnf p l rfl)
        · have := hL.length; omega
        · rintro ⟨q, l, he, hs⟩
          cases he
          have := hL.fresh (fun c0 => by rw [hslot1, hs]; simp)
          omega
        · intro k c' hk _
          refine hL.confs k c' ?_
          show (s.heap ++ [HObj.conf v])[k]? = _
          rw [List.getElem?_append_left (List.getElem?_eq_some_iff.1 hk).1]
          exact hk
      have hset : HM.set p s.heap.length false s1 = (match CMM.determineWouldUpdate c none v.values with
          | .error e => (.error e, s2)
          | .ok true => (HM.setAt p s.heap.length >>= fun _ => pure (s.heap.length, true)) s2
          | .ok false => (.ok (s.heap.length, false), s2)) := by
        unfold HM.set
        rw [M.bind_ok (a := some r2) (s' := s2) (by unfold M.tryCatch; rw [hg2])]
        simp only
        rw [M.bind_ok (HM.deref_run hL.conf), M.bind_ok (M.get_run s2), hv2]
        simp only
        rw [M.bind_run, M.liftE_run]
        cases CMM.determineWouldUpdate c none v.values with
        | error e => rfl
        | ok b => cases b <;> rfl
      rw [hset] at hstart
      cases hw : CMM.determineWouldUpdate c none v.values with
      | error e =>
        rw [hw] at hstart
        exact ⟨r2, s2, hstart, hdone⟩
      | ok b =>
        rw [hw] at hstart
        cases b with
        | false => exact ⟨r2, s2, hstart, hdone, hv2⟩
        | true =>
          simp only at hstart ⊢
          have hp2 : CleanPath s2.rootName p := by rw [hL.rootName]; exact hp
          have hf2 : s2.find p = some (.ref r2) := by
            have := hL.place
            simp only [HS.place] at this
            cases hfp : s2.find p with
            | none => rw [hfp] at this; simp at this
            | some w =>
              rw [hfp] at this
              cases w <;> simp at this
              rw [this]
          obtain ⟨s3, h1, h2, h3, h4⟩ := setAt_run hL.inv hp2 hf2 (.inl ⟨c, hL.conf⟩) hv2
          refine ⟨s3, ?_, ?_, ?_, ?_, ?_, HS.confAt_some.1 (by rw [h4]; exact HS.confAt_some.2 hv2), ?_, ?_, ?_, Nat.le_refl _⟩
          · rw [hstart, M.bind_ok h1]; rfl
          · refine h2.inv hL.inv ?_
            intro a ha hr
            rw [hL.rootName] at ha
            by_cases hne : a = .item p
            · exact hne
            · exfalso
              rw [hdone.others a ha hne] at hr
              have := hi.bound a _ ha hr
              omega
          · have := congrArg View.fs h3
            exact this.trans hdone.fs
          · rw [h2.rootName]; exact hL.rootName
          · rw [h2.place hL.inv (.item p) hp2, if_pos rfl]
          · rw [h3, hdone.view]
            exact View.setConf_setConf _ _ _ _
          · intro a ha hne
            rw [h2.place hL.inv a (by rw [hL.rootName]; exact ha), if_neg hne]
            exact hdone.others a ha hne
          · have := h2.length
            have := hdone.length
            omega

/-- `reset` of the local config. -/
theorem HM.reset_local_run [BEq V] {s : HS V} (hi : HInv s) (b : Bool) :
    ∃ s', HM.reset none b s = (.ok (s.heap.length, true), s') ∧
      s.Replaced s' .loc s.heap.length (Conf.ofDict Dict.empty) := by
  let s1 : HS V := { s with heap := s.heap ++ [.conf (Conf.ofDict Dict.empty)] }
  let s' : HS V := { s1 with localConf := s.heap.length }
  have hk : s.Kept s' := by
    refine HS.kept_of_heap hi rfl rfl rfl (by simp [s', s1]) ?_
    intro r hr
    exact .inl (List.getElem?_append_left hr)
  have hc : s'.heap[s.heap.length]? = some (.conf (Conf.ofDict Dict.empty)) := by
    show (s.heap ++ [HObj.conf _])[s.heap.length]? = _
    simp
  refine ⟨s', rfl, hk.inv hi (.inr (Nat.le_refl _)) ⟨_, hc⟩, rfl, rfl, rfl, hc, ?_, ?_, hk.length, Nat.le_refl _⟩
  · have h1 := HS.view_alloc hi [HObj.conf (Conf.ofDict (Dict.empty : Dict String V))]
    have hslot : ∀ q, s'.view.slot q = s1.view.slot q := by
      intro q
      show (if CleanPath s.rootName q then _ else _) = (if CleanPath s.rootName q then _ else _)
      by_cases hq : CleanPath s.rootName q
      · rw [if_pos hq, if_pos hq]
        unfold HS.hslot
        rw [hk.find q hq, (HS.kept_alloc hi _).find q hq]
        rfl
      · rw [if_neg hq, if_neg hq]
    have e : s'.view = ⟨s.fs, s.rootName, s'.view.localConf, s'.view.slot⟩ := rfl
    rw [e, funext hslot, show s1.view = s.view from h1]
    show _ = View.put _ _ _
    unfold View.put
    congr 1
    show (s'.confAt s.heap.length).getD _ = _
    rw [HS.confAt_some.2 hc]
    rfl
  · intro a ha hne
    exact hk.place hi a ha hne

/-- Changes of files change nothing in memory. -/
theorem HS.edit_run {s : HS V} (hi : HInv s) (fs : Files V) : HInv { s with fs } ∧ HS.view { s with fs } = { s.view with fs } ∧
    ∀ a, a.Clean s.rootName → HS.place { s with fs } a = s.place a := by
  have hk : s.Kept { s with fs } := HS.kept_of_heap hi rfl rfl rfl (Nat.le_refl _) (fun _ _ => .inl rfl)
  refine ⟨hk.inv hi (.inl rfl) hi.loc, ?_, ?_⟩
  · show View.mk _ _ _ _ = View.mk _ _ _ _
    congr 1
    funext q
    by_cases hq : CleanPath s.rootName q
    · rw [if_pos hq]
      unfold HS.hslot
      rw [hk.find q hq]
      show _ = (if CleanPath s.rootName q then _ else _)
      rw [if_pos hq]
      rfl
    · rw [if_neg hq]
      show _ = (if CleanPath s.rootName q then _ else _)
      rw [if_neg hq]
  · intro a ha
    by_cases hl : a = .loc
    · subst hl; rfl
    · exact hk.place hi a ha hl

end Verif.Model
