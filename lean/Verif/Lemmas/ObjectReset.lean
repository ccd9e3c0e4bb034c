import Verif.Lemmas.ObjectGraft

/-
What `ConfigManager.reset` does to the objects: for sections, with creation, and for paths that lead to nothing.
-/

namespace Verif.Model
open Verif.Py
variable {V : Type}

/-- What reading the folder of a section gives. -/
def sectNode (fs : Files V) (p : List String) : Except PyErr (Node V) :=
  match fs.tree.at? p with
  | some t => fromFiles fs p t
  | none => .ok (.sect none [] [])

theorem sectNode_fresh {fs : Files V} {p : List String} {n : Node V} (h : sectNode fs p = .ok n) : FreshNode n := by
  unfold sectNode at h
  split at h
  · exact fromFiles_freshNode _ _ _ _ h
  · cases h; exact .sect none [] (by simp)

theorem sectNode_sect {fs : Files V} {p : List String} {n : Node V} (h : sectNode fs p = .ok n) : ∃ c m, n = .sect c [] m := by
  unfold sectNode at h
  split at h
  · rename_i tr _
    obtain ⟨b, fl, ds⟩ := tr
    simp only [fromFiles] at h
    split at h
    · cases h
    · split at h
      · cases h
      · cases h; exact ⟨_, _, rfl⟩
  · cases h; exact ⟨_, _, rfl⟩

/-- Only what is in the range counts. -/
theorem Built.congr {H H' : List (HObj V)} {nm n r lo hi} (h : Built H nm n r lo hi)
    (hh : ∀ j, lo ≤ j → H'[j]? = H[j]?) : Built H' nm n r lo hi := by
  induction h with
  | file h1 h2 h3 => exact .file (by rw [hh _ h2]; exact h1) h2 h3
  | sect rc rmap k lo' hi' h1 h2 h3 h4 h5 h6 h7 h8 ih =>
    refine .sect rc rmap k lo' hi' (by rw [hh _ h2]; exact h1) h2 h3 ?_ h5 ?_ h7 h8
    · rcases h4 with h4 | ⟨c, j, e1, e2, e3, e4, e5⟩
      · exact .inl h4
      · exact .inr ⟨c, j, e1, e2, by rw [hh _ e4]; exact e3, e4, e5⟩
    · intro x n hx
      have := (h7 x n hx).1
      exact ih x n hx (fun j hj => hh j (by omega))

namespace HM

theorem getDefault_sect {s : HS V} {p : List String} {r : Nat} (hf : s.find p = some (.ref r)) {nm cfg attrs map}
    (ho : s.heap[r]? = some (.sect nm cfg attrs map)) (b : Bool) : getDefault p b s = match sectNode s.fs p with
      | .error e => (.error e, s)
      | .ok n => (.ok (allocNode (p.getLast?.getD s.rootName) s.heap n).1,
          { s with heap := (allocNode (p.getLast?.getD s.rootName) s.heap n).2 }) := by
  unfold getDefault sectNode
  rw [M.bind_ok (M.get_run s)]
  simp only
  rw [M.bind_run, M.liftE_run, HS.walk_of_find hf]
  simp only [HS.obj, ho]
  rw [M.bind_run, M.liftE_run]
  cases s.fs.tree.at? p with
  | none => rfl
  | some t =>
    simp only
    cases fromFiles s.fs p t with
    | error e => rfl
    | ok n => rfl

/-- `reset` of a section that has no config. -/
theorem reset_sect_none [BEq V] {s : HS V} (hi : HInv s) {p : List String} (hp : CleanPath s.rootName p) (hne : p ≠ [])
    (h : s.hslot p = .sect none) (b : Bool) : match sectNode s.fs p with
    | .error e => HM.reset (some p) b s = (.error e, s)
    | .ok n => ∃ r s', HM.reset (some p) b s = (.ok (r, true), s') ∧ s.heap.length ≤ r ∧
        ((b = true ∧ s.Still s' ∧ ∀ (k : Nat) (c : Conf V), s.heap[k]? = some (.conf c) → s'.heap[k]? = some (.conf c)) ∨
          s.Grown s' p n ∧ s'.place (.item p) = some r) := by
  obtain ⟨nm, rc, attrs, map, ho, hpl, hcfg⟩ := HS.find_of_sect hi hp h
  rcases ho with ⟨e, -⟩ | ⟨r0, hf, ho⟩
  · exact absurd e hne
  have hrc : rc = none := by
    cases rc with
    | none => rfl
    | some k =>
      obtain ⟨c', hc'⟩ := hi.cfg p k hp hpl
      have : s.confAt k = some c' := HS.confAt_some.2 hc'
      simp [this] at hcfg
  subst hrc
  have hdef := getDefault_sect hf ho b
  cases hn : sectNode s.fs p with
  | error e =>
    rw [hn] at hdef
    show (getDefault p b >>= fun value => set p value b) s = _
    rw [M.bind_error hdef]
  | ok n =>
    rw [hn] at hdef
    simp only at hdef ⊢
    obtain ⟨hb, t, ht⟩ := (sectNode_fresh hn).builds (p.getLast?.getD s.rootName) s.heap
    obtain ⟨r, hr⟩ : ∃ r, r = (allocNode (p.getLast?.getD s.rootName) s.heap n).1 := ⟨_, rfl⟩
    rw [ht] at hb
    rw [ht, ← hr] at hdef
    rw [← hr] at hb
    have hst := HS.still_alloc hi t
    have hslot' : HS.hslot { s with heap := s.heap ++ t } p = .sect none := by
      have e1 := congrFun (congrArg View.slot hst.view) p
      have hp' : CleanPath ({ s with heap := s.heap ++ t } : HS V).rootName p := hp
      rw [HS.view_slot hp', HS.view_slot hp, h] at e1
      exact e1
    have hg' := getRef_sect hst.inv (p := p) hp hne hslot'
    rw [hst.place (.cfg p) hp, hpl] at hg'
    have hset : HM.reset (some p) b s =
        ((if b then setWithCreate .mgr r p else setAt p r) >>= fun _ => pure (r, true)) { s with heap := s.heap ++ t } := by
      show (getDefault p b >>= fun value => set p value b) s = _
      rw [M.bind_ok hdef]
      unfold HM.set
      rw [M.bind_ok (a := none) (s' := { s with heap := s.heap ++ t }) (by unfold M.tryCatch; rw [hg'])]
    have hcat := List.dropLast_concat_getLastD hne
    obtain ⟨q, hq⟩ : ∃ q, q = p.dropLast := ⟨_, rfl⟩
    obtain ⟨x, hx⟩ : ∃ x, x = p.getLast?.getD "" := ⟨_, rfl⟩
    rw [← hq, ← hx] at hcat
    have hcl : CleanPath s.rootName (q ++ [x]) := by rw [hcat]; exact hp
    have hf1 : HS.find { s with heap := s.heap ++ t } (q ++ [x]) = some (.ref r0) := by
      rw [(HS.kept_alloc hi t).find _ hcl, hcat]; exact hf
    obtain ⟨v, k, nm', cfg', attrs', map', hv, hk, hok⟩ := HS.parent_sect hst.inv hf1
    have hcl1 : CleanPath ({ s with heap := s.heap ++ t } : HS V).rootName (q ++ [x]) := hcl
    have hrange := Built.range (s := { s with heap := s.heap ++ t }) hb
    have hnew : ∀ a j, a.Clean s.rootName → HS.place { s with heap := s.heap ++ t } a = some j → j < s.heap.length := by
      intro a j ha hj
      rw [hst.place a ha] at hj
      exact hi.bound a j ha hj
    have hfin : ∀ s' : HS V, HS.Patch { s with heap := s.heap ++ t } s' q x r →
        Built s'.heap (p.getLast?.getD s.rootName) n r s.heap.length s'.heap.length →
        s.Grown s' p n ∧ s'.place (.item p) = some r := by
      intro s' hpa hb'
      have hbel : HS.Below { s with heap := s.heap ++ t } s' s.heap.length (q ++ [x]) r n := by
        refine Built.below_of (by simp) ?_ hnew
        rw [hcat]; exact hb'
      have hgr := HS.grown_of hi hpa hbel
      rw [hcat] at hgr
      refine ⟨hgr, ?_⟩
      have := hpa.find_here
      rw [hcat] at this
      simp [HS.place, this]
    have hkl : k < s.heap.length := by
      rcases hk with ⟨-, rfl⟩ | rfl
      · exact hi.bound .root _ trivial rfl
      · have hq0 := (cleanPath_concat.1 hcl).1
        rw [(HS.kept_alloc hi t).find _ hq0] at hv
        exact hi.find_bound hq0 hv
    cases b with
    | false =>
      have hsa : setAt p r { s with heap := s.heap ++ t } = (.ok (), HS.setattr { s with heap := s.heap ++ t } v x r) := by
        unfold HM.setAt
        rw [M.bind_ok (M.get_run _), M.bind_run, M.liftE_run, ← hq, HS.walk_of_find hv, ← hx]
        rfl
      obtain ⟨hpa, -⟩ := HS.setattr_of hst.inv hcl1 hv hk hok r
      refine ⟨r, _, ?_, hrange.1, .inr (hfin _ hpa ?_)⟩
      · rw [hset]
        simp only [Bool.false_eq_true, if_false]
        rw [M.bind_ok hsa]
        rfl
      · have hlen := hpa.length
        rw [hlen]
        refine hb.congr ?_
        intro j hj
        unfold HS.setattr
        split
        · split
          · rfl
          · split <;> rfl
        · rename_i k'
          have hkk : k' = k := by
            rcases hk with ⟨e, -⟩ | e <;> cases e
            rfl
          subst hkk
          split
          · split
            · exact List.getElem?_set_ne (by omega)
            · exact List.getElem?_set_ne (by omega)
          · rfl
        · rfl
    | true =>
      have hsa : setWithCreate .mgr r p { s with heap := s.heap ++ t } = (.ok (), { s with
          heap := (s.heap ++ t).set k (.sect nm' cfg' attrs' (AList.set map' x r)) }) := by
        have := setWithCreate_walk (s := { s with heap := s.heap ++ t }) r x [] q (HS.walk_of_find hv)
        rw [show q ++ x :: [] = p from hcat] at this
        rw [this, setWithCreate, append_run hk hok]
      obtain ⟨hres, h1, h2⟩ := HS.append_of hst.inv hcl1 hv hk hok r
      have hrun : HM.reset (some p) true s = (.ok (r, true), { s with
          heap := (s.heap ++ t).set k (.sect nm' cfg' attrs' (AList.set map' x r)) }) := by
        rw [hset]
        simp only [if_true]
        rw [M.bind_ok hsa]
        rfl
      refine ⟨r, _, hrun, hrange.1, ?_⟩
      rcases childOf_append_or v s.attrs attrs' map' x r with hc | hc
      · refine .inr (hfin _ (h1 hc) ?_)
        show Built ((s.heap ++ t).set k _) _ _ _ _ ((s.heap ++ t).set k _).length
        rw [List.length_set]
        refine hb.congr ?_
        intro j hj
        exact List.getElem?_set_ne (by omega)
      · have h2 := h2 hc
        refine .inl ⟨rfl, ⟨h2.inv, h2.fs, h2.rootName, h2.view.trans hst.view, ?_, ?_⟩, ?_⟩
        · intro a ha
          rw [h2.place a ha]
          exact hst.place a ha
        · simp
        · intro j c hj
          refine hres.conf.2 ?_
          show (s.heap ++ t)[j]? = _
          rw [List.getElem?_append_left (List.getElem?_eq_some_iff.1 hj).1]
          exact hj

theorem getDefault_item {s : HS V} (hi : HInv s) {p : List String} (h : (s.hslot p).isItem = true) (b : Bool) :
    getDefault p b s = match s.fs.load (.item p) with
      | .error e => (.error e, s)
      | .ok v => (.ok s.heap.length, { s with heap := s.heap ++ [.conf v] }) := by
  obtain ⟨r, hf, hobj⟩ := HS.find_of_item hi h
  have hw := HS.walk_of_find hf
  unfold HM.getDefault
  rw [M.bind_ok (M.get_run s)]
  simp only [hw]
  rcases hobj with ⟨c, ho, -⟩ | ⟨l, ho, -⟩
  · rw [HS.obj_of ho, M.bind_run, M.liftE_run]
    simp only
    rw [M.bind_run, M.liftE_run]
    cases s.fs.load (.item p) with
    | error e => rfl
    | ok v => rfl
  · rw [HS.obj_of ho, M.bind_run, M.liftE_run]
    simp only
    rw [M.bind_run, M.liftE_run]
    cases s.fs.load (.item p) with
    | error e => rfl
    | ok v => rfl

/-- After asking for an item, its config is an attribute of the section (or of the manager). -/
theorem getRef_shadow {s s' : HS V} (hi : HInv s) {q : List String} {x : String} (hp : CleanPath s.rootName (q ++ [x]))
    (h : (s.hslot (q ++ [x])).isItem = true) {r : Nat} (hg : HM.getRef (q ++ [x]) s = (.ok (some r), s')) :
    ∃ v k nm cfg attrs map, s'.find q = some v ∧ s'.At v k ∧ s'.heap[k]? = some (.sect nm cfg attrs map) ∧
      ∀ m, childOf v s'.attrs attrs m x = some (.ref r) := by
  obtain ⟨r0, hf, hobj⟩ := HS.find_of_item hi h
  have hw := HS.walk_of_find hf
  have hq := (cleanPath_concat.1 hp).1
  have key : ∀ (t : List (HObj V)), setAt (q ++ [x]) r { s with heap := s.heap ++ t } = (.ok (), s') →
      ∃ v k nm cfg attrs map, s'.find q = some v ∧ s'.At v k ∧ s'.heap[k]? = some (.sect nm cfg attrs map) ∧
        ∀ m, childOf v s'.attrs attrs m x = some (.ref r) := by
    intro t hs
    have hst := HS.still_alloc hi t
    have hf1 : HS.find { s with heap := s.heap ++ t } (q ++ [x]) = some (.ref r0) := by
      rw [(HS.kept_alloc hi t).find _ hp]; exact hf
    obtain ⟨v, k, nm, cfg, attrs, map, hv, hk, hok⟩ := HS.parent_sect hst.inv hf1
    have hp1 : CleanPath ({ s with heap := s.heap ++ t } : HS V).rootName (q ++ [x]) := hp
    obtain ⟨hpa, attrs', ho', hch⟩ := HS.setattr_of hst.inv hp1 hv hk hok r
    have hsa : setAt (q ++ [x]) r { s with heap := s.heap ++ t } = (.ok (), HS.setattr { s with heap := s.heap ++ t } v x r) := by
      unfold HM.setAt
      rw [M.bind_ok (M.get_run _), M.bind_run, M.liftE_run, List.dropLast_concat, HS.walk_of_find hv]
      simp
    rw [hsa] at hs
    injection hs with _ hs
    subst hs
    refine ⟨v, k, nm, cfg, attrs', map, ?_, ?_, ho', hch⟩
    · rw [hpa.find_off q hq ?_]
      · exact hv
      · intro hpre
        have := hpre.length_le
        simp at this
        omega
    · unfold HS.At
      rw [hpa.section_]
      exact hk
  unfold HM.getRef at hg
  rw [M.bind_ok (M.get_run s), M.bind_run, M.liftE_run, hw] at hg
  simp only at hg
  rcases hobj with ⟨c, ho, -⟩ | ⟨l, ho, -⟩
  · rw [M.bind_run, M.liftE_run, HS.obj_of ho] at hg
    simp only at hg
    rw [M.bind_run] at hg
    cases hs : setAt (q ++ [x]) r0 s with
    | mk res s1 =>
      rw [hs] at hg
      cases res with
      | error e => cases hg
      | ok u =>
        cases hg
        refine key [] ?_
        simp only [List.append_nil]
        exact hs
  · rw [M.bind_run, M.liftE_run, HS.obj_of ho] at hg
    simp only at hg
    rw [M.bind_run, M.liftE_run] at hg
    cases hl : s.fs.load l with
    | error e => rw [hl] at hg; cases hg
    | ok c =>
      rw [hl] at hg
      simp only at hg
      rw [M.bind_ok (M.modify_run _ _), M.bind_run] at hg
      cases hs : setAt (q ++ [x]) (s.alloc (.conf c)).1 (s.alloc (.conf c)).2 with
      | mk res s1 =>
        rw [hs] at hg
        cases res with
        | error e => cases hg
        | ok u =>
          cases hg
          exact key [.conf c] hs

/-- `reset` of an item with creation: the item keeps the config it has. -/
theorem reset_item_create [BEq V] {s : HS V} (hi : HInv s) {p : List String} (hp : CleanPath s.rootName p)
    (h : (s.hslot p).isItem = true) {v c : Conf V} (hl : s.fs.load (.item p) = .ok v) (hown : s.view.own p = .ok c) :
    match CMM.determineWouldUpdate c none v.values with
    | .error e => ∃ r s', HM.reset (some p) true s = (.error e, s') ∧ s.Done s' (.item p) r c ∧ r ≠ s.heap.length
    | .ok b => ∃ r s', HM.reset (some p) true s = (.ok (s.heap.length, b), s') ∧ s.Done s' (.item p) r c ∧ r ≠ s.heap.length ∧
        s'.heap[s.heap.length]? = some (.conf v) := by
  have hne : p ≠ [] := by
    rintro rfl
    obtain ⟨rc, attrs, map, hs⟩ := hi.root
    simp [HS.hslot, HS.find_nil, HS.slotAt, hs, Slot.isItem] at h
  have hdef := getDefault_item hi h true
  rw [hl] at hdef
  simp only at hdef
  have hst := HS.still_alloc hi [HObj.conf v]
  let s1 : HS V := { s with heap := s.heap ++ [.conf v] }
  have hi1 : HInv s1 := hst.inv
  have hv1 : s1.view = s.view := hst.view
  have hlen1 : s1.heap.length = s.heap.length + 1 := by simp [s1]
  have hc1 : s1.heap[s.heap.length]? = some (.conf v) := by
    show (s.heap ++ [HObj.conf v])[s.heap.length]? = _
    simp
  have hslot1 : s1.hslot p = s.hslot p := by
    have e1 := HS.view_slot (s := s1) (q := p) hp
    have e2 := HS.view_slot (s := s) (q := p) hp
    rw [← e1, ← e2, hv1]
  have hpl1 : ∀ a, a.Clean s.rootName → s1.place a = s.place a := hst.place
  have hit1 : (s1.hslot p).isItem = true := by rw [hslot1]; exact h
  have hg := HM.getRef_item hi1 (p := p) hp hit1
  rw [hv1, hown] at hg
  obtain ⟨r2, s2, hg2, hL⟩ := hg
  have hv2 : s2.heap[s.heap.length]? = some (.conf v) := hL.confs _ _ hc1
  have hdone : s.Done s2 (.item p) r2 c := by
    refine ⟨hL.inv, ?_, hL.rootName, hL.place, hL.conf, ?_, ?_, ?_, ?_, ?_, ?_⟩
    · have := congrArg View.fs hL.view; exact this
    · rw [hL.view, hv1]; rfl
    · intro a ha hne; rw [hL.others a ha hne]; exact hpl1 a ha
    · intro hnf
      obtain ⟨r0, -, ⟨c0, -, hs⟩ | ⟨l, -, hs⟩⟩ := HS.find_of_item hi h
      · rw [← hpl1 (.item p) hp]; exact hL.same c0 (by rw [hslot1]; exact hs)
      · exact absurd hs (hnf p l rfl)
    · have := hL.length; omega
    · rintro ⟨q, l, he, hs⟩
      cases he
      have := hL.fresh (fun c0 => by rw [hslot1, hs]; simp)
      omega
    · intro k c' hk _
      refine hL.confs k c' ?_
      show (s.heap ++ [HObj.conf v])[k]? = _
      rw [List.getElem?_append_left (List.getElem?_eq_some_iff.1 hk).1]
      exact hk
  have hr2 : r2 ≠ s.heap.length := by
    obtain ⟨r0, hf0, ⟨c0, ho0, hs⟩ | ⟨l, -, hs⟩⟩ := HS.find_of_item hi h
    · have e1 : s1.place (.item p) = some r2 := hL.same c0 (by rw [hslot1]; exact hs)
      rw [hpl1 (.item p) hp] at e1
      simp only [HS.place, hf0, Option.some.injEq] at e1
      have := (List.getElem?_eq_some_iff.1 ho0).1
      omega
    · have := hL.fresh (fun c0 => by rw [hslot1, hs]; simp)
      omega
  have hset : HM.reset (some p) true s = (match CMM.determineWouldUpdate c none v.values with
      | .error e => (.error e, s2)
      | .ok true => (HM.setWithCreate .mgr s.heap.length p >>= fun _ => pure (s.heap.length, true)) s2
      | .ok false => (.ok (s.heap.length, false), s2)) := by
    show (HM.getDefault p true >>= fun v => HM.set p v true) s = _
    rw [M.bind_ok hdef]
    unfold HM.set
    rw [M.bind_ok (a := some r2) (s' := s2) (by unfold M.tryCatch; rw [show _ = _ from hg2])]
    simp only
    rw [M.bind_ok (HM.deref_run hL.conf), M.bind_ok (M.get_run s2), hv2]
    simp only
    rw [M.bind_run, M.liftE_run]
    cases CMM.determineWouldUpdate c none v.values with
    | error e => rfl
    | ok b => cases b <;> rfl
  cases hdw : CMM.determineWouldUpdate c none v.values with
  | error e =>
    rw [hdw] at hset
    exact ⟨r2, s2, hset, hdone, hr2⟩
  | ok b =>
    rw [hdw] at hset
    cases b with
    | false => exact ⟨r2, s2, hset, hdone, hr2, hv2⟩
    | true =>
      simp only at hset ⊢
      have hcat := List.dropLast_concat_getLastD hne
      obtain ⟨q, hq⟩ : ∃ q, q = p.dropLast := ⟨_, rfl⟩
      obtain ⟨x, hx⟩ : ∃ x, x = p.getLast?.getD "" := ⟨_, rfl⟩
      rw [← hq, ← hx] at hcat
      obtain ⟨w, k, nm, cfg, attrs, map, hw, hk, hok, hsh⟩ := getRef_shadow (q := q) (x := x) hi1 (by rw [hcat]; exact hp)
        (by rw [hcat]; exact hit1) (by rw [hcat]; exact hg2)
      have hp2 : CleanPath s2.rootName (q ++ [x]) := by rw [hcat, hL.rootName]; exact hp
      obtain ⟨hres, -, hstill⟩ := HS.append_of hL.inv hp2 hw hk hok s.heap.length
      have hstill := hstill (by rw [hsh, hsh])
      have hrun := setWithCreate_walk (s := s2) s.heap.length x [] q (HS.walk_of_find hw)
      rw [show q ++ x :: [] = p from hcat, setWithCreate, append_run hk hok] at hrun
      refine ⟨r2, _, by rw [hset, M.bind_ok hrun]; rfl, ?_, hr2, hres.conf.2 hv2⟩
      have hcl2 : ∀ a : Place, a.Clean s.rootName → a.Clean s2.rootName := fun a ha => by rw [hL.rootName]; exact ha
      refine ⟨hstill.inv, hstill.fs.trans hdone.fs, hstill.rootName.trans hdone.rootName, ?_, hres.conf.2 hdone.conf, ?_, ?_,
        hdone.same, ?_, hdone.fresh, ?_⟩
      · rw [hstill.place _ (hcl2 (.item p) hp)]; exact hdone.place
      · rw [hstill.view]; exact hdone.view
      · intro a ha hne; rw [hstill.place a (hcl2 a ha)]; exact hdone.others a ha hne
      · exact Nat.le_trans hdone.length hstill.length
      · intro k' c' hk' hne'
        exact hres.conf.2 (hdone.confs k' c' hk' hne')

/-- `reset` of what is not there, with creation. -/
theorem reset_missing_create [BEq V] {s : HS V} (hi : HInv s) {p : List String} (hp : CleanPath s.rootName p)
    (hw : s.walk .mgr p = .error .keyError) : match s.fs.load (.item p) with
    | .error e => HM.reset (some p) true s = (.error e, s)
    | .ok c => ∃ q x r s', p = q ++ [x] ++ r ∧ s.find q ≠ none ∧ s.find (q ++ [x]) = none ∧
        HM.reset (some p) true s = (.ok (s.heap.length, true), s') ∧ s.Grown s' (q ++ [x]) (CMM.nest (.conf c) r) ∧
        s'.place (.item p) = some s.heap.length := by
  have hdef : getDefault p true s = match s.fs.load (.item p) with
      | .error e => (.error e, s)
      | .ok v => (.ok s.heap.length, { s with heap := s.heap ++ [.conf v] }) := by
    unfold HM.getDefault
    rw [M.bind_ok (M.get_run s)]
    simp only [hw]
    rw [M.bind_run, M.liftE_run]
    simp only [and_self, if_true]
    rw [M.bind_run, M.liftE_run]
    cases s.fs.load (.item p) with
    | error e => rfl
    | ok v => rfl
  cases hl : s.fs.load (.item p) with
  | error e =>
    rw [hl] at hdef
    show (HM.getDefault p true >>= fun v => HM.set p v true) s = _
    rw [M.bind_error hdef]
  | ok c =>
    rw [hl] at hdef
    simp only at hdef ⊢
    obtain ⟨q, x, r, v, k, nm, cfg, attrs, map, rfl, hv, hk, ho, ha⟩ := HS.walk_keyError hi hp hw
    have hcl : CleanPath s.rootName (q ++ [x]) := CleanPath.prefix r _ hp
    have hq : CleanPath s.rootName q := (cleanPath_concat.1 hcl).1
    have hnone : s.find (q ++ [x]) = none := by
      rw [HS.find_concat, hv]
      simp only [HS.child, ha]
    have hkl : k < s.heap.length := (List.getElem?_eq_some_iff.1 ho).1
    have hnr : NotReserved sectionReserved r := (cleanPath_append (by simp) hp).2
    -- the new config
    have hi1 : HInv { s with heap := s.heap ++ [.conf c] } := HS.inv_alloc hi _
    have hv1 : HS.find { s with heap := s.heap ++ [.conf c] } q = some v := by
      rw [(HS.kept_alloc hi _).find _ hq]; exact hv
    have ho1 : ({ s with heap := s.heap ++ [.conf c] } : HS V).heap[k]? = some (.sect nm cfg attrs map) := by
      show (s.heap ++ _)[k]? = _
      rw [List.getElem?_append_left hkl]; exact ho
    have ha1 : HS.attr { s with heap := s.heap ++ [.conf c] } v x = .error .keyError := by
      rw [HS.attr_alloc hi _ hq hv]; exact ha
    have hw1 : HS.walk { s with heap := s.heap ++ [.conf c] } .mgr (q ++ [x] ++ r) = .error .keyError := by
      rw [List.append_assoc, HS.walk_append, HS.walk_of_find hv1]
      simp only [List.singleton_append]
      rw [HS.walk, ha1]
    have hg1 : getRef (q ++ [x] ++ r) { s with heap := s.heap ++ [.conf c] } =
        (.error .keyError, { s with heap := s.heap ++ [.conf c] }) := by
      unfold getRef
      rw [M.bind_ok (M.get_run _), M.bind_run, M.liftE_run, hw1]
    have hrun := setWithCreate_walk (s := { s with heap := s.heap ++ [.conf c] }) s.heap.length x r q (HS.walk_of_find hv1)
    rw [setWithCreate_new hi1 hcl hv1 hk ho1 ha1 s.heap.length r hnr] at hrun
    -- all new objects at once
    obtain ⟨O, hO⟩ : ∃ O : HObj V, O = .sect nm cfg attrs (AList.set map x (chainTop s.heap.length (s.heap.length + 1) r)) :=
      ⟨_, rfl⟩
    obtain ⟨ch, hch⟩ : ∃ ch : List (HObj V), ch = chain s.heap.length (s.heap.length + 1) x r := ⟨_, rfl⟩
    have hheap : (s.heap ++ [HObj.conf c]).set k (.sect nm cfg attrs (AList.set map x (chainTop s.heap.length
        (s.heap ++ [HObj.conf c]).length r))) ++ chain s.heap.length (s.heap ++ [HObj.conf c]).length x r =
        (s.heap ++ ([HObj.conf c] ++ ch)).set k O := by
      rw [List.set_append_left _ _ hkl, List.set_append_left _ _ hkl, List.append_assoc, hch, hO]
      simp
    simp only [hheap] at hrun
    have hst := HS.still_alloc hi ([HObj.conf c] ++ ch)
    have hv2 : HS.find { s with heap := s.heap ++ ([.conf c] ++ ch) } q = some v := by
      rw [(HS.kept_alloc hi _).find _ hq]; exact hv
    have ho2 : ({ s with heap := s.heap ++ ([.conf c] ++ ch) } : HS V).heap[k]? = some (.sect nm cfg attrs map) := by
      show (s.heap ++ _)[k]? = _
      rw [List.getElem?_append_left hkl]; exact ho
    have hcl2 : CleanPath ({ s with heap := s.heap ++ ([.conf c] ++ ch) } : HS V).rootName (q ++ [x]) := hcl
    obtain ⟨-, hpa, -⟩ := HS.append_of hst.inv hcl2 hv2 hk ho2 (chainTop s.heap.length (s.heap.length + 1) r)
    have hpa := hpa (childOf_append (HS.attr_error_childOf hi hcl hv hk ho ha) _)
    rw [← hO] at hpa
    have hconf : ((s.heap ++ ([HObj.conf c] ++ ch)).set k O)[s.heap.length]? = some (.conf c) := by
      rw [List.getElem?_set_ne (by omega)]
      simp
    have hchain : HasChain ((s.heap ++ ([HObj.conf c] ++ ch)).set k O) s.heap.length (s.heap.length + 1) x r := by
      have := hasChain_append s.heap.length r (s.heap.set k O ++ [HObj.conf c]) x
      rw [List.set_append_left _ _ hkl, hch]
      simpa using this
    have hbel : HS.Below { s with heap := s.heap ++ ([HObj.conf c] ++ ch) } 
        { s with heap := (s.heap ++ ([HObj.conf c] ++ ch)).set k O } s.heap.length (q ++ [x])
        (chainTop s.heap.length (s.heap.length + 1) r) (CMM.nest (.conf c) r) := by
      refine HasChain.below hconf hchain (Nat.lt_succ_self _) ?_
      · intro a j ha' hj
        rw [hst.place a ha'] at hj
        exact hi.bound a j ha' hj
    refine ⟨q, x, r, _, rfl, by rw [hv]; simp, hnone, ?_, HS.grown_of hi hpa hbel, ?_⟩
    · show (HM.getDefault (q ++ [x] ++ r) true >>= fun v => HM.set (q ++ [x] ++ r) v true) s = _
      rw [M.bind_ok hdef]
      unfold HM.set
      rw [M.bind_ok (a := none) (s' := { s with heap := s.heap ++ [HObj.conf c] }) (by unfold M.tryCatch; rw [hg1]; rfl)]
      simp only [if_true]
      rw [show q ++ [x] ++ r = q ++ x :: r by simp, M.bind_ok hrun]
      rfl
    · have := hpa.place_on r false
      simp only [Bool.false_eq_true, if_false] at this
      rw [this]
      have hcx := cleanPath_append (by simp) hp
      have hlast : (q ++ [x]).getLast?.getD s.rootName = x := by simp
      rw [hlast] at hcx
      have hadd := HasChain.addr (s := { s with heap := (s.heap ++ ([HObj.conf c] ++ ch)).set k O }) hconf r hchain hcx.2 hcx.1
      rw [hadd.1]
      simp

end HM

/-! ### Every config still belongs to its own file -/

theorem sectNode_ok {fs : Files V} {p : List String} {n : Node V} (h : sectNode fs p = .ok n) : NodeOK p n := by
  unfold sectNode at h
  split at h
  · exact fromFiles_ok fs _ _ _ h
  · cases h
    refine .sect ?_ ?_ ?_ <;> simp [AList.get?]

theorem nest_ok (r : List String) : ∀ {p : List String} {n : Node V}, NodeOK (p ++ r) n → NodeOK p (CMM.nest n r) := by
  induction r with
  | nil => intro p n h; simpa [CMM.nest] using h
  | cons x r ih =>
    intro p n h
    refine .sect (by simp) (by simp [AList.get?]) ?_
    intro y m hm
    simp only [AList.get?] at hm
    split at hm
    · rename_i e
      cases hm
      rw [← e]
      exact ih (by simpa using h)
    · cases hm

theorem OwnFiles.graft {a : View V} (h : OwnFiles a) {p : List String} {n : Node V} (hne : p ≠ []) (hn : NodeOK p n) :
    OwnFiles (a.graft p n).clean := by
  have key : ∀ q, (a.graft p n).clean.slot q = .absent ∨ (a.graft p n).clean.slot q = a.slot q ∨
      ∃ m, (a.graft p n).clean.slot q = Node.slotOf (.ok m) ∧ NodeOK q m := by
    intro q
    show (if CleanPath a.rootName q then (a.graft p n).slot q else .absent) = _ ∨ (if CleanPath a.rootName q then (a.graft p n).slot q else .absent) = _ ∨
      ∃ m, (if CleanPath a.rootName q then (a.graft p n).slot q else .absent) = _ ∧ _
    by_cases hq : CleanPath a.rootName q
    · rw [if_pos hq]
      unfold View.graft
      dsimp only
      by_cases hp : p <+: q
      · rw [if_pos hp]
        obtain ⟨rest, rfl⟩ := hp
        rw [List.drop_left]
        cases hw : n.walk sectionReserved (p.getLast?.getD a.rootName) rest with
        | error e => exact .inl rfl
        | ok m => exact .inr (.inr ⟨m, rfl, Node.walk_plain_found hn (cleanPath_append hne hq).1 hw⟩)
      · rw [if_neg hp]; exact .inr (.inl rfl)
    · rw [if_neg hq]; exact .inl rfl
  refine ⟨?_, ?_, ?_, h.localConf⟩
  · intro q l hs hq
    rcases key q with e | e | ⟨m, e, hm⟩
    · rw [e] at hs; cases hs
    · rw [e] at hs; exact h.file q l hs hq
    · rw [e] at hs
      cases m <;> simp [Node.slotOf] at hs
      subst hs
      exact hm.file_loc
  · intro q c hs hq
    rcases key q with e | e | ⟨m, e, hm⟩
    · rw [e] at hs; cases hs
    · rw [e] at hs; exact h.conf q c hs hq
    · rw [e] at hs
      cases m <;> simp [Node.slotOf] at hs
      subst hs
      exact hm.conf_file
  · intro q c hs hq
    rcases key q with e | e | ⟨m, e, hm⟩
    · rw [e] at hs; cases hs
    · rw [e] at hs; exact h.sect q c hs hq
    · rw [e] at hs
      cases m <;> simp [Node.slotOf] at hs
      exact hm.sect_inv.1 c hs

/-- An item whose file can be read has a config. -/
theorem OwnFiles.own_load {a : View V} (h : OwnFiles a) {p : List String} (hp : PlainPath a.rootName p)
    (hit : (a.slot p).isItem = true) {v : Conf V} (hl : a.fs.load (.item p) = .ok v) : ∃ c, a.own p = .ok c := by
  unfold View.own
  cases hs : a.slot p with
  | conf c => exact ⟨c, rfl⟩
  | file l =>
    rw [h.file p l hs hp]
    exact ⟨v, hl⟩
  | _ => rw [hs] at hit; cases hit

end Verif.Model
