import Verif.Lemmas.ObjectMissing
import Verif.Lemmas.SetAt

/-
Resets that create or replace, in the config manager with objects and in the config manager as a tree; the two managers do the same.
-/

namespace Verif.Model
open Verif.Py
variable {V : Type}

/-! ### The tree afterwards -/

theorem CM.graft_view {t t' : CM V} {p : List String} {n : Node V} (h1 : t'.fs = t.fs) (h2 : t'.rootName = t.rootName)
    (h3 : t'.localConf = t.localConf)
    (hb : ∀ u, CleanPath t.rootName (p ++ u) →
      t'.view.slot (p ++ u) = Node.slotOf (n.walk sectionReserved (p.getLast?.getD t.rootName) u))
    (ho : ∀ u, CleanPath t.rootName u → ¬ p <+: u → t'.view.slot u = t.view.slot u) :
    t'.view.clean = (t.view.graft p n).clean := by
  have hs : t'.view.clean.slot = (t.view.graft p n).clean.slot := by
    funext u
    show (if CleanPath t'.rootName u then _ else _) = (if CleanPath t.rootName u then _ else _)
    rw [h2]
    by_cases hu : CleanPath t.rootName u
    · rw [if_pos hu, if_pos hu]
      show _ = (if p <+: u then _ else _)
      by_cases hp : p <+: u
      · rw [if_pos hp]
        obtain ⟨w, rfl⟩ := hp
        rw [hb w hu, List.drop_left]
        rfl
      · rw [if_neg hp, ho u hu hp]
    · rw [if_neg hu, if_neg hu]
  have e1 : t'.view.clean = ⟨t'.fs, t'.rootName, t'.localConf, t'.view.clean.slot⟩ := rfl
  have e2 : (t.view.graft p n).clean = ⟨t.fs, t.rootName, t.localConf, (t.view.graft p n).clean.slot⟩ := rfl
  rw [e1, e2, hs, h1, h2, h3]

theorem View.graft_clean {a : View V} {p : List String} {n : Node V} : (a.clean.graft p n).clean = (a.graft p n).clean := by
  have hs : (a.clean.graft p n).clean.slot = (a.graft p n).clean.slot := by
    funext u
    show (if CleanPath a.rootName u then _ else _) = (if CleanPath a.rootName u then _ else _)
    by_cases hu : CleanPath a.rootName u
    · rw [if_pos hu, if_pos hu]
      show (if p <+: u then _ else _) = (if p <+: u then _ else _)
      split
      · rfl
      · exact View.clean_slot hu
    · rw [if_neg hu, if_neg hu]
  have e1 : (a.clean.graft p n).clean = ⟨a.fs, a.rootName, a.localConf, (a.clean.graft p n).clean.slot⟩ := rfl
  have e2 : (a.graft p n).clean = ⟨a.fs, a.rootName, a.localConf, (a.graft p n).clean.slot⟩ := rfl
  rw [e1, e2, hs]

theorem Node.solid_walk (q : List String) : ∀ {res nm} {n m : Node V}, SolidNode n → n.walk res nm q = .ok m →
    SolidNode m ∨ m = .other := by
  induction q with
  | nil => intro res nm n m h hw; cases hw; exact .inl h
  | cons x q ih =>
    intro res nm n m h hw
    rw [Node.walk] at hw
    cases hc : n.child res nm x with
    | error e => rw [hc] at hw; cases hw
    | ok n' =>
      rw [hc] at hw
      rcases CMM.child_solid_or h hc with h' | rfl
      · exact ih h' hw
      · exact .inr (Node.walk_other hw)

namespace CMM

/-- Replacing a section. -/
theorem setFunc_graft {t : CM V} {q : List String} {x : String} {cfg : Option (Conf V)} {attrs map : List (String × Node V)}
    (hw : t.walk q = .ok (.sect cfg attrs map)) {n : Node V} (hn : n ≠ .own) :
    ∃ t', setFuncOrSectionConfig (q ++ [x]) n false t = (.ok (), t') ∧ t'.view.clean = (t.view.graft (q ++ [x]) n).clean := by
  have hf : ∀ m : Node V, m ≠ .own → (fun parent => parent.setAttr x n) m ≠ .own := by
    intro m hm
    cases m <;> simp_all [Node.setAttr]
  refine ⟨t.modifyAt q (fun parent => parent.setAttr x n), ?_, ?_⟩
  · unfold setFuncOrSectionConfig
    simp only [Bool.false_eq_true, if_false, List.dropLast_concat, hw]
    simp
  · refine CM.graft_view rfl rfl rfl ?_ ?_
    · intro u hu
      have h1 := Node.walk_modifyAt_below (f := fun parent => parent.setAttr x n) hf q (x :: u) hw
      have hres : x ∉ if q = [] then managerReserved else sectionReserved :=
        (cleanPath_concat.1 (CleanPath.prefix u _ hu)).2.2
      show Node.slotOf (Node.walk managerReserved t.rootName (t.root.modifyAt managerReserved t.rootName q _) (q ++ [x] ++ u)) = _
      rw [show q ++ [x] ++ u = q ++ x :: u by simp, h1, Node.walk]
      simp only [Node.setAttr]
      rw [Node.child_attr hres (AList.get?_set_at _ _ _) hn]
      simp
    · intro u _ hnp
      show Node.slot managerReserved t.rootName (t.root.modifyAt managerReserved t.rootName q _) u = _
      refine Node.slot_modifyAt_frame hf (fun c => rfl) (Q := fun r => ¬ [x] <+: r)
        (fun res nm m r hr => Node.slot_setAttr_ne res nm m n x r hr) q u ?_
      rintro r' rfl hr
      obtain ⟨w, rfl⟩ := hr
      exact hnp ⟨w, by simp⟩

/-- The config of an item is an attribute of the section around it, once it is loaded. -/
theorem getFunc_stored {t : CM V} {p : List String} (hit : IsItem t p) {c : Conf V} (hc : t.view.own p = .ok c) :
    ∃ t1, getFuncOrSectionConfigs p t = (.ok (some c), t1) ∧ t1.view = t.view.setConf p c ∧
      ∃ attrs map cfg q x, p = q ++ [x] ∧ t1.walk q = .ok (.sect cfg attrs map) ∧ ∃ m, AList.get? attrs x = some m := by
  obtain ⟨hst, hview⟩ := view_storeLoaded t hit c
  have hcat := List.dropLast_concat_getLastD hit.ne
  obtain ⟨q, hq⟩ : ∃ q, q = p.dropLast := ⟨_, rfl⟩
  obtain ⟨x, hx⟩ : ∃ x, x = p.getLast?.getD "" := ⟨_, rfl⟩
  rw [← hq, ← hx] at hcat
  refine ⟨(storeLoaded p c t).2, ?_, hview, ?_⟩
  · have hg := getFunc_view t (.inl hit)
    unfold getFuncOrSectionConfigs
    rw [M.bind_ok (M.get_run t), M.bind_run, M.liftE_run]
    have hi := hit.item
    have hs : t.view.slot p = Node.slotOf (t.walk p) := rfl
    unfold View.own at hc
    rw [hs] at hi hc
    cases hw : t.walk p with
    | error e => rw [hw] at hi; cases hi
    | ok n =>
      rw [hw] at hi hc
      cases n with
      | conf c' => cases hc; rfl
      | file l =>
        simp only [Node.slotOf] at hc
        simp only
        rw [M.bind_run]
        simp only [configOf]
        rw [show t.fs.load l = .ok c from hc]
        rfl
      | sect cfg attrs map => cases hi
      | own => cases hi
      | other => cases hi
  · have htk : p.take q.length = q := by rw [← hcat, List.take_left]
    obtain ⟨cfg, hi⟩ := hit.prefix_sect (k := q.length) (by
      have := congrArg List.length hcat
      rw [List.length_append, List.length_singleton] at this
      omega)
    rw [htk] at hi
    obtain ⟨attrs, map, hm⟩ := CM.walk_of_slot_sect hi
    have hm' := Node.walk_modifyAt_below (f := fun parent => parent.setAttr x
      (attrValue parent (q.getLast?.getD t.rootName) x c)) (fun n h => by
        cases n with
        | own => exact absurd rfl h
        | _ => simp [Node.setAttr]) q [] hm
    rw [List.append_nil] at hm'
    refine ⟨_, map, cfg, q, x, hcat.symm, ?_, _, AList.get?_set_at attrs x
      (attrValue (.sect cfg attrs map) (q.getLast?.getD t.rootName) x c)⟩
    unfold storeLoaded
    simp only [← hq, ← hx]
    exact hm'

theorem getDefault_sectNode {t : CM V} {p : List String} {cfg : Option (Conf V)} (h : t.view.slot p = .sect cfg) (b : Bool) :
    getDefault t p b = sectNode t.fs p := by
  obtain ⟨attrs, map, hw⟩ := CM.walk_of_slot_sect h
  unfold getDefault defaultKind sectNode
  rw [hw]
  rfl

theorem getDefault_itemLoad {t : CM V} {p : List String} (h : (t.view.slot p).isItem = true) (b : Bool) :
    getDefault t p b = (t.fs.load (.item p)).map .conf := by
  have hs : t.view.slot p = Node.slotOf (t.walk p) := rfl
  rw [hs] at h
  unfold getDefault defaultKind
  cases hw : t.walk p with
  | error e => rw [hw] at h; cases h
  | ok n =>
    rw [hw] at h
    cases n with
    | conf c => rfl
    | file l => rfl
    | sect cfg attrs map => cases h
    | own => cases h
    | other => cases h

theorem getDefault_missing_create {t : CM V} (ht : SolidNode t.root) {p : List String} (hp : CleanPath t.rootName p) (hne : p ≠ [])
    (h : t.view.slot p = .absent) : getDefault t p true = if t.view.missing [] p = .keyError then (t.fs.load (.item p)).map .conf
      else .error (t.view.missing [] p) := by
  have hm := CM.missing_walk p [] t.root rfl ht hp hne h
  rw [List.nil_append] at hm
  have hs : t.view.slot p = Node.slotOf (t.walk p) := rfl
  rw [hs] at h
  unfold getDefault defaultKind
  cases hw : t.walk p with
  | error e =>
    have hm' : t.view.missing [] p = e := by rw [← hm, hw]; rfl
    rw [hm']
    simp only [and_true]
    by_cases he : e = .keyError
    · rw [if_pos he, if_pos he]
    · rw [if_neg he, if_neg he]
  | ok n =>
    rw [hw] at hm h
    rw [← hm]
    cases n with
    | conf c => cases h
    | file l => cases h
    | sect cfg attrs map => cases h
    | own => rfl
    | other => rfl

/-- Where a path ends that leads to nothing. -/
theorem walk_missing {t : CM V} (ht : SolidNode t.root) {q r : List String} {x : String} (hp : CleanPath t.rootName (q ++ x :: r))
    (h1 : t.view.slot q ≠ .absent) (h2 : t.view.slot (q ++ [x]) = .absent) (hw : t.walk (q ++ x :: r) = .error .keyError) :
    ∃ cfg attrs map, t.walk q = .ok (.sect cfg attrs map) ∧ t.walk (q ++ [x]) = .error .keyError := by
  have hs0 : t.view.slot q = Node.slotOf (t.walk q) := rfl
  have hs1 : t.view.slot (q ++ [x]) = Node.slotOf (t.walk (q ++ [x])) := rfl
  rw [hs0] at h1
  rw [hs1] at h2
  cases hq : t.walk q with
  | error e => rw [hq] at h1; exact absurd rfl h1
  | ok n =>
    rw [hq] at h1
    have hstep := CM.walk_concat hq [x]
    rw [CM.walk_concat hq, Node.walk] at hw
    rw [Node.walk] at hstep
    cases n with
    | conf c =>
      simp only [Node.child] at hw
      cases hg : c.getattr x with
      | error e =>
        rw [hg] at hw
        unfold Conf.getattr at hg
        split at hg
        · cases hg; cases hw
        · cases hg
      | ok u =>
        rw [hg] at hw
        simp only at hw
        rw [CM.walk_other'] at hw
        split at hw <;> cases hw
    | file l => simp only [Node.child] at hw; cases hw
    | own => exact absurd rfl h1
    | other => exact absurd rfl h1
    | sect cfg attrs map =>
      refine ⟨cfg, attrs, map, rfl, ?_⟩
      obtain ⟨-, hx, hres⟩ := cleanPath_concat.1 (CleanPath.prefix r _ (by simpa using hp) : CleanPath t.rootName (q ++ [x]))
      cases hc : Node.child (if q = [] then managerReserved else sectionReserved) (q.getLast?.getD t.rootName) (.sect cfg attrs map) x with
      | error e =>
        rw [hc] at hstep
        rw [hstep, CM.child_error hc]
      | ok m =>
        rw [hc] at hstep
        simp only [Node.walk] at hstep
        rw [hstep] at h2
        have hsol : SolidNode (.sect cfg attrs map) := by
          rcases Node.solid_walk q ht hq with h' | h'
          · exact h'
          · cases h'
        rcases CM.child_solid hsol hx hres hc with h' | ⟨-, c, e⟩
        · cases h' <;> cases h2
        · cases e

end CMM

namespace HM

theorem getDefault_missing_create {s : HS V} (hi : HInv s) {p : List String} (hp : CleanPath s.rootName p)
    (h : ∀ r, s.find p ≠ some (.ref r)) (hm : s.view.missing [] p ≠ .keyError) :
    getDefault p true s = (.error (s.view.missing [] p), s) := by
  have hw' := HS.missing_walk hi p [] .mgr rfl hp h
  unfold getDefault
  rw [M.bind_ok (M.get_run s)]
  simp only
  rw [M.bind_run, M.liftE_run]
  unfold HS.find at h
  cases hw : s.walk .mgr p with
  | error e =>
    have he : s.view.missing [] p = e := by rw [← hw', hw]; rfl
    rw [he] at hm ⊢
    simp [hm]
  | ok v =>
    rw [hw] at h hw'
    cases v with
    | ref r => exact absurd rfl (h r)
    | mgr => simp only; rw [← hw']; rfl
    | none => simp only; rw [← hw']; rfl
    | other => simp only; rw [← hw']; rfl

end HM

namespace Linked
variable {s : HS V} {t : CM V}

theorem slot (h : Linked s t) {p : List String} (hp : CleanPath s.rootName p) : t.view.slot p = s.hslot p := by
  have hp' : CleanPath t.rootName p := by rw [← h.rootName]; exact hp
  rw [← View.clean_slot (a := t.view) hp', ← h.view, HS.view_slot hp]

theorem grown {s' : HS V} {t' : CM V} (h : Linked s t) {p : List String} {n : Node V} (hg : s.Grown s' p n) (hne : p ≠ [])
    (hn : NodeOK p n) (hv : t'.view.clean = (t.view.graft p n).clean) : Linked s' t' :=
  ⟨⟨hg.inv, by rw [hg.view]; exact h.fine.own.graft hne hn⟩, by rw [hg.view, hv, h.view, View.graft_clean]⟩

variable [BEq V]

/-- A reset of a section that has no config. -/
theorem resetPlain (h : Linked s t) {p : List String} (hp : CleanPath s.rootName p) (hne : p ≠ []) (hs : s.hslot p = .sect none) :
    s.answer (.reset (some p) false) = t.answer (.reset (some p) false) ∧
      Linked (s.step (.reset (some p) false)) (t.step (.reset (some p) false)) := by
  have hrun := HM.reset_sect_none h.fine.inv hp hne hs false
  have ht : t.view.slot p = .sect none := by rw [h.slot hp, hs]
  have hd := CMM.getDefault_sectNode ht false
  rw [← h.fs] at hd
  have h3 : CMM.reset (some p) false t = (M.liftE (sectNode s.fs p) >>= fun value => CMM.set p value false) t := by
    show (M.get >>= fun t => M.liftE (CMM.getDefault t p false) >>= fun value => CMM.set p value false) t = _
    rw [M.bind_ok (M.get_run t), hd]
  simp only [HS.answer, CM.answer, HS.step, CM.step]
  cases hn : sectNode s.fs p with
  | error e =>
    rw [hn] at hrun h3
    simp only at hrun
    rw [hrun, h3]
    exact ⟨rfl, h⟩
  | ok n =>
    rw [hn] at hrun h3
    obtain ⟨r, s', h1, h2, ⟨hff, -⟩ | ⟨h4, h5⟩⟩ := hrun
    · cases hff
    obtain ⟨nc, nm, rfl⟩ := sectNode_sect hn
    have hcat := List.dropLast_concat_getLastD hne
    obtain ⟨q, hq⟩ : ∃ q, q = p.dropLast := ⟨_, rfl⟩
    obtain ⟨x, hx⟩ : ∃ x, x = p.getLast?.getD "" := ⟨_, rfl⟩
    rw [← hq, ← hx] at hcat
    have hw : ∃ cfg attrs map, t.walk q = .ok (.sect cfg attrs map) := by
      obtain ⟨attrs, map, hw⟩ := CM.walk_of_slot_sect ht
      unfold CM.walk at hw ⊢
      rw [← hcat, Node.walk_append] at hw
      cases hqw : Node.walk managerReserved t.rootName t.root q with
      | error e => rw [hqw] at hw; cases hw
      | ok m =>
        rw [hqw] at hw
        simp only at hw
        have hw' : ∃ res nm, m.walk res nm [x] = .ok (.sect none attrs map) := by
          split at hw
          · rename_i he
            rw [he] at hqw
            cases hqw
            exact ⟨_, _, hw⟩
          · exact ⟨_, _, hw⟩
        obtain ⟨res, nm', hw'⟩ := hw'
        obtain ⟨c', a', m', rfl⟩ := Node.sect_of_walk hw'
        exact ⟨c', a', m', rfl⟩
    obtain ⟨cfg, attrs, map, hw⟩ := hw
    obtain ⟨t', h6, h7⟩ := CMM.setFunc_graft (x := x) hw (n := .sect nc [] nm) (by simp)
    rw [hcat] at h6 h7
    have h8 : CMM.reset (some p) false t = (.ok (.sect nc [] nm, true), t') := by
      rw [h3, M.bind_run, M.liftE_run]
      simp only
      unfold CMM.set
      have htc : M.tryCatch (CMM.getFuncOrSectionConfigs p) (fun e => if e = .keyError then pure none else M.raise e) t =
          (.ok none, t) := by
        unfold M.tryCatch
        rw [CMM.getFunc_sect ht]
      rw [M.bind_ok htc]
      simp only
      rw [M.bind_ok h6]
      rfl
    rw [h1, h8]
    refine ⟨?_, h.grown h4 hne (sectNode_ok hn) h7⟩
    have hp1 : CleanPath s'.rootName p := by rw [h4.rootName]; exact hp
    have hsl : s'.hslot p = .sect nc := by
      rw [← HS.view_slot hp1, h4.view]
      show (if CleanPath s.rootName p then (s.view.graft p _).slot p else .absent) = _
      rw [if_pos hp]
      show (if p <+: p then _ else _) = _
      rw [if_pos (List.prefix_refl p)]
      simp [Node.walk, Node.slotOf]
    have hfr : s'.find p = some (.ref r) := by
      simp only [HS.place] at h5
      cases hfd : s'.find p with
      | none => rw [hfd] at h5; cases h5
      | some v =>
        rw [hfd] at h5
        rcases HS.find_cases hfd with rfl | ⟨k, rfl⟩
        · cases h5
        · cases h5; rfl
    unfold HS.hslot at hsl
    rw [hfr] at hsl
    simp only [HS.slotAt] at hsl
    cases ho : s'.heap[r]? with
    | none => rw [ho] at hsl; cases hsl
    | some o =>
      rw [ho] at hsl
      cases o with
      | sect _ _ _ _ => simp only [ho]
      | conf c => cases hsl
      | file l => cases hsl

/-- A reset with creation, of an item that is there. -/
theorem resetItemCreate (h : Linked s t) {p : List String} (hp : CleanPath s.rootName p) (hit : (s.hslot p).isItem = true) :
    s.answer (.reset (some p) true) = t.answer (.reset (some p) true) ∧
      Linked (s.step (.reset (some p) true)) (t.step (.reset (some p) true)) := by
  have hne : p ≠ [] := by
    rintro rfl
    obtain ⟨rc, attrs, map, hs⟩ := h.fine.inv.root
    simp [HS.hslot, HS.find_nil, HS.slotAt, hs, Slot.isItem] at hit
  have hp' : CleanPath t.rootName p := by rw [← h.rootName]; exact hp
  have ht : (t.view.slot p).isItem = true := by rw [h.slot hp]; exact hit
  have hitem : IsItem t p := CMM.isItem_of hp' hne ht
  have hdS := HM.getDefault_item h.fine.inv hit true
  have hdT := CMM.getDefault_itemLoad ht true
  rw [← h.fs] at hdT
  have h3 : CMM.reset (some p) true t = (M.liftE ((s.fs.load (.item p)).map .conf) >>= fun value => CMM.set p value true) t := by
    show (M.get >>= fun t => M.liftE (CMM.getDefault t p true) >>= fun value => CMM.set p value true) t = _
    rw [M.bind_ok (M.get_run t), hdT]
  simp only [HS.answer, CM.answer, HS.step, CM.step]
  cases hl : s.fs.load (.item p) with
  | error e =>
    rw [hl] at hdS h3
    have : HM.reset (some p) true s = (.error e, s) := by
      show (HM.getDefault p true >>= fun value => HM.set p value true) s = _
      rw [M.bind_error hdS]
    rw [this, h3]
    exact ⟨rfl, h⟩
  | ok v =>
    rw [hl] at h3
    obtain ⟨c, hown⟩ := h.fine.own.own_load (p := p) hp.1 (by rw [HS.view_slot hp]; exact hit) hl
    have hcf : c.file = Place.file (.item p) :=
      h.fine.own.ownAt_file (pl := .item p) hp (by simp only [View.ownAt, hown])
    have hownT : t.view.own p = .ok c := by rw [← View.clean_own (a := t.view) hp', ← h.view]; exact hown
    have hrun := HM.reset_item_create h.fine.inv hp hit hl hown
    -- the tree, after the config is loaded
    obtain ⟨t1, hg, hv1, attrs, map, cfg, q, x, hpq, hw1, m1, hx1⟩ := CMM.getFunc_stored hitem hownT
    have htc : M.tryCatch (CMM.getFuncOrSectionConfigs p) (fun e => if e = .keyError then pure none else M.raise e) t =
        (.ok (some c), t1) := by
      unfold M.tryCatch
      rw [hg]
    have hset : CMM.reset (some p) true t = (M.liftE (CMM.determineWouldUpdate c none v.values) >>= fun would =>
        if would then (CMM.setFuncOrSectionConfig p (.conf v) true >>= fun _ => pure (.conf v, true))
        else pure (.conf v, false)) t1 := by
      rw [h3, M.bind_run, M.liftE_run]
      simp only [Except.map]
      unfold CMM.set
      rw [M.bind_ok htc]
    have hput : (t.view.setConf p c).clean = t.view.clean.put (.item p) c := View.clean_put (a := t.view) (pl := .item p) hp' c
    rw [M.bind_run, M.liftE_run] at hset
    cases hdw : CMM.determineWouldUpdate c none v.values with
    | error e =>
      rw [hdw] at hrun hset
      obtain ⟨r, s', h4, h5, -⟩ := hrun
      rw [h4, hset]
      exact ⟨rfl, h.put h5 hcf (by rw [hv1]; exact hput)⟩
    | ok b =>
      rw [hdw] at hrun hset
      obtain ⟨r, s', h4, h5, -, h6⟩ := hrun
      cases b with
      | false =>
        simp only [Bool.false_eq_true, if_false] at hset
        rw [h4, hset]
        refine ⟨?_, h.put h5 hcf (by rw [← hput, ← hv1]; rfl)⟩
        simp only [h6]
        rfl
      | true =>
        obtain ⟨n', h7, h8⟩ := CMM.awc_hidden (v := .conf v) (x := x) q hw1 hx1
        have hsf : CMM.setFuncOrSectionConfig p (.conf v) true t1 = (.ok (), { t1 with root := n' }) := by
          unfold CMM.setFuncOrSectionConfig
          rw [hpq]
          simp only [if_true, h7]
        simp only [if_true] at hset
        rw [M.bind_ok hsf] at hset
        rw [h4, hset]
        refine ⟨?_, h.put h5 hcf ?_⟩
        · simp only [h6]
          rfl
        · rw [← hput, ← hv1]
          have : ({ t1 with root := n' } : CM V).view = t1.view := by
            show View.mk _ _ _ _ = View.mk _ _ _ _
            congr 1
            funext u
            exact h8 u
          rw [← this]
          rfl

/-- A reset with creation, of what is not there. -/
theorem resetCreate (h : Linked s t) (hsol : SolidNode t.root) (hown : t.OwnOK) {p : List String} (hp : CleanPath s.rootName p)
    (hne : p ≠ []) (hn : ∀ r, s.find p ≠ some (.ref r)) : s.answer (.reset (some p) true) = t.answer (.reset (some p) true) ∧
      Linked (s.step (.reset (some p) true)) (t.step (.reset (some p) true)) := by
  have hp' : CleanPath t.rootName p := by rw [← h.rootName]; exact hp
  have hslot : s.hslot p = .absent := by
    unfold HS.hslot
    cases hf : s.find p with
    | none => rfl
    | some v =>
      rcases HS.find_cases hf with rfl | ⟨r, rfl⟩
      · exact absurd (HS.find_mgr_nil hf) hne
      · exact absurd hf (hn r)
  have habs : t.view.slot p = .absent := by rw [h.slot hp, hslot]
  have hm : t.view.missing [] p = s.view.missing [] p := by
    rw [h.view, View.clean_missing (a := t.view) p [] hp']
  have hdT := CMM.getDefault_missing_create hsol hp' hne habs
  rw [hm, ← h.fs] at hdT
  have h3 : CMM.reset (some p) true t = (M.liftE (CMM.getDefault t p true) >>= fun value => CMM.set p value true) t := by
    show (M.get >>= fun t => M.liftE (CMM.getDefault t p true) >>= fun value => CMM.set p value true) t = _
    rw [M.bind_ok (M.get_run t)]
  rw [hdT] at h3
  simp only [HS.answer, CM.answer, HS.step, CM.step]
  by_cases hk : s.view.missing [] p = .keyError
  · rw [if_pos hk] at h3
    have hwS : s.walk .mgr p = .error .keyError := by
      have := HS.missing_walk h.fine.inv p [] .mgr rfl hp hn
      rw [hk] at this
      cases hw : s.walk .mgr p with
      | error e => rw [hw] at this; exact congrArg _ this
      | ok v => rw [hw] at this; cases this
    have hwT : t.walk p = .error .keyError := by
      have := CM.missing_walk p [] t.root rfl hsol hp' hne habs
      rw [List.nil_append, hm, hk] at this
      cases hw : t.walk p with
      | error e => rw [hw] at this; exact congrArg _ this
      | ok v => rw [hw] at this; cases this
    have hrun := HM.reset_missing_create h.fine.inv hp hwS
    cases hl : s.fs.load (.item p) with
    | error e =>
      rw [hl] at hrun h3
      simp only at hrun
      rw [hrun, h3]
      exact ⟨rfl, h⟩
    | ok c =>
      rw [hl] at hrun h3
      obtain ⟨q, x, r, s', rfl, h4, h5, h6, h7, h8⟩ := hrun
      have hcl : CleanPath s.rootName (q ++ [x]) := CleanPath.prefix r _ hp
      have hq : CleanPath s.rootName q := (cleanPath_concat.1 hcl).1
      have e : q ++ [x] ++ r = q ++ x :: r := by simp
      have hsq : t.view.slot q ≠ .absent := by
        rw [h.slot hq]
        cases hf : s.find q with
        | none => exact absurd hf h4
        | some v => exact HS.find_hslot h.fine.inv hq hf
      have hsx : t.view.slot (q ++ [x]) = .absent := by
        rw [h.slot hcl]
        unfold HS.hslot
        rw [h5]
      obtain ⟨cfg, attrs, map, hwq, hwx⟩ := CMM.walk_missing hsol (by rw [← e]; exact hp') hsq hsx (by rw [← e]; exact hwT)
      have hnr : NotReserved sectionReserved r := (cleanPath_append (by simp) hp).2
      obtain ⟨n', h9, h10, h11⟩ := CMM.awc_below (v := .conf c) (by simp) hnr q hown hwq hwx
      have hset : CMM.reset (some (q ++ [x] ++ r)) true t = (.ok (.conf c, true), { t with root := n' }) := by
        rw [h3, M.bind_run, M.liftE_run]
        simp only [Except.map]
        unfold CMM.set
        have htc : M.tryCatch (CMM.getFuncOrSectionConfigs (q ++ [x] ++ r))
            (fun e => if e = .keyError then pure none else M.raise e) t = (.ok none, t) := by
          unfold M.tryCatch
          have : CMM.getFuncOrSectionConfigs (q ++ [x] ++ r) t = (.error .keyError, t) := by
            unfold CMM.getFuncOrSectionConfigs
            rw [M.bind_ok (M.get_run t), M.bind_run, M.liftE_run, hwT]
          rw [this]
          rfl
        rw [M.bind_ok htc]
        simp only
        have hsf : CMM.setFuncOrSectionConfig (q ++ [x] ++ r) (.conf c) true t = (.ok (), { t with root := n' }) := by
          unfold CMM.setFuncOrSectionConfig
          rw [e]
          simp only [if_true, h9]
        rw [M.bind_ok hsf]
        rfl
      rw [h6, hset]
      refine ⟨?_, h.grown h7 (by simp) (nest_ok r (.conf (Files.load_file hl))) (CM.graft_view rfl rfl rfl ?_ ?_)⟩
      · have hp1 : CleanPath s'.rootName (q ++ [x] ++ r) := by rw [h7.rootName]; exact hp
        have hit : s'.hslot (q ++ [x] ++ r) = .conf c := by
          rw [← HS.view_slot hp1, h7.view]
          show (if CleanPath s.rootName _ then (s.view.graft _ _).slot _ else .absent) = _
          rw [if_pos hp]
          show (if q ++ [x] <+: _ then _ else _) = _
          rw [if_pos (List.prefix_append _ _), List.drop_left]
          have := CMM.walk_nest (.conf c) [] r x hnr
          rw [List.append_nil] at this
          simp only [List.getLast?_append, List.getLast?_singleton, Option.some_or, Option.getD_some, this]
          rfl
        have hfr : s'.find (q ++ [x] ++ r) = some (.ref s.heap.length) := by
          simp only [HS.place] at h8
          cases hfd : s'.find (q ++ [x] ++ r) with
          | none => rw [hfd] at h8; cases h8
          | some v =>
            rw [hfd] at h8
            rcases HS.find_cases hfd with rfl | ⟨k, rfl⟩
            · cases h8
            · cases h8; rfl
        unfold HS.hslot at hit
        rw [hfr] at hit
        simp only [HS.slotAt] at hit
        simp only
        cases ho : s'.heap[s.heap.length]? with
        | none => rw [ho] at hit; cases hit
        | some o =>
          rw [ho] at hit
          cases o with
          | sect _ _ _ _ => cases hit
          | conf c' => cases hit; rfl
          | file l => cases hit
      · intro u _
        show Node.slotOf (Node.walk managerReserved t.rootName n' (q ++ [x] ++ u)) = _
        rw [show q ++ [x] ++ u = q ++ x :: u by simp, h10 u]
        simp
      · intro u _ hnp
        exact h11 u hnp
  · rw [if_neg hk] at h3
    have h1 := HM.getDefault_missing_create h.fine.inv hp hn hk
    have : HM.reset (some p) true s = (.error (s.view.missing [] p), s) := by
      show (HM.getDefault p true >>= fun value => HM.set p value true) s = _
      rw [M.bind_error h1]
    rw [this, h3]
    exact ⟨rfl, h⟩

end Linked

/-- Calls on clean paths, whether they lead to something or not; no reset with creation of a section
without config. -/
def HS.Asked (s : HS V) : CMOp V → Prop
  | .update _ p _ _ => CleanArg s.rootName p ∧ p ≠ some []
  | .refresh p => CleanPath s.rootName p ∧ p ≠ []
  | .get p => CleanPath s.rootName p ∧ p ≠ []
  | .pop _ p => CleanArg s.rootName p ∧ p ≠ some []
  | .reset none _ => True
  | .reset (some p) b => CleanPath s.rootName p ∧ p ≠ [] ∧ (b = true → s.hslot p ≠ .sect none)
  | .edit _ => True

/-- The two managers hold the same, and the tree is made of configs, files and sections. -/
structure Matched (s : HS V) (t : CM V) : Prop where
  linked : Linked s t
  solid : SolidNode t.root
  own : t.OwnOK

theorem Matched.step [BEq V] {s : HS V} {t : CM V} (h : Matched s t) {op : CMOp V} (ha : s.Asked op) :
    s.answer op = t.answer op ∧ Matched (s.step op) (t.step op) := by
  have hl := h.linked
  have hsol : SolidNode (t.step op).root := by
    exact CM.step_solid h.solid op
  suffices hmain : s.answer op = t.answer op ∧ Linked (s.step op) (t.step op) from ⟨hmain.1, hmain.2, hsol, CM.step_own h.own op⟩
  cases op with
  | update d p persist kw =>
    cases p with
    | none => exact hl.update .loc d persist kw
    | some p =>
      have hne : p ≠ [] := fun e => ha.2 (by rw [e])
      rcases HS.target_or hl.fine.inv ha.1 with ⟨pl, ht⟩ | hn
      · exact hl.update ht d persist kw
      · obtain ⟨h1, h2, -, -⟩ := hl.missing h.solid ha.1 hne hn
        have e1 : HM.update d (some p) persist kw s = (.error (s.view.missing [] p), s) := by
          unfold HM.update; rw [M.bind_error (show HM.getProjectOrLocal (some p) s = _ from h1)]
        have e2 : CMM.update d (some p) persist kw t = (.error (s.view.missing [] p), t) := by
          unfold CMM.update; rw [M.bind_error (show CMM.getProjectOrLocal (some p) t = _ from h2)]
        simp only [HS.answer, CM.answer, HS.step, CM.step]
        rw [e1, e2]
        exact ⟨rfl, hl⟩
  | refresh p =>
    rcases HS.target_or hl.fine.inv ha.1 with ⟨pl, ht⟩ | hn
    · exact hl.refresh ht
    · obtain ⟨h1, h2, -, -⟩ := hl.missing h.solid ha.1 ha.2 hn
      have e1 : HM.refresh p s = (.error (s.view.missing [] p), s) := by
        unfold HM.refresh; rw [M.bind_error (show HM.getProjectOrLocal (some p) s = _ from h1)]
      have e2 : CMM.refresh p t = (.error (s.view.missing [] p), t) := by
        unfold CMM.refresh; rw [M.bind_error (show CMM.getProjectOrLocal (some p) t = _ from h2)]
      simp only [HS.answer, CM.answer, HS.step, CM.step]
      rw [e1, e2]
      exact ⟨rfl, hl⟩
  | get p =>
    rcases HS.target_or hl.fine.inv ha.1 with ⟨pl, ht⟩ | hn
    · exact hl.get ht
    · obtain ⟨h1, h2, -, -⟩ := hl.missing h.solid ha.1 ha.2 hn
      have e1 : HM.get p s = (.error (s.view.missing [] p), s) := by
        unfold HM.get; rw [M.bind_error h1]
      have e2 : CMM.get p t = (.error (s.view.missing [] p), t) := by
        unfold CMM.get; rw [M.bind_error h2]
      simp only [HS.answer, CM.answer, HS.step, CM.step]
      rw [e1, e2]
      exact ⟨rfl, hl⟩
  | pop key p =>
    cases p with
    | none => exact hl.pop .loc key
    | some p =>
      have hne : p ≠ [] := fun e => ha.2 (by rw [e])
      rcases HS.target_or hl.fine.inv ha.1 with ⟨pl, ht⟩ | hn
      · exact hl.pop ht key
      · obtain ⟨h1, h2, -, -⟩ := hl.missing h.solid ha.1 hne hn
        have e1 : HM.pop key (some p) s = (.error (s.view.missing [] p), s) := by
          unfold HM.pop; rw [M.bind_error (show HM.getProjectOrLocal (some p) s = _ from h1)]
        have e2 : CMM.pop key (some p) t = (.error (s.view.missing [] p), t) := by
          unfold CMM.pop; rw [M.bind_error (show CMM.getProjectOrLocal (some p) t = _ from h2)]
        simp only [HS.answer, CM.answer, HS.step, CM.step]
        rw [e1, e2]
        exact ⟨rfl, hl⟩
  | edit fs => exact ⟨rfl, hl.edit fs⟩
  | reset p b =>
    cases p with
    | none => exact hl.resetLocal b
    | some p =>
      obtain ⟨hp, hne, hns⟩ := ha
      rcases HS.target_or hl.fine.inv hp with ⟨pl, ht⟩ | hn
      · cases ht with
        | item hp' hs =>
          cases b with
          | false => exact hl.reset (.item hp' hs)
          | true => exact hl.resetItemCreate hp hs
        | @sect _ cfg _ _ hs =>
          cases cfg with
          | none =>
            cases b with
            | false => exact hl.resetPlain hp hne hs
            | true => exact absurd hs (hns rfl)
          | some c => exact hl.resetSect hp hne hs b
      · cases b with
        | true => exact hl.resetCreate h.solid h.own hp hne hn
        | false =>
          obtain ⟨-, -, h1, h2⟩ := hl.missing h.solid hp hne hn
          have e1 : HM.reset (some p) false s = (.error (s.view.missing [] p), s) := by
            show (HM.getDefault p false >>= fun value => HM.set p value false) s = _
            rw [M.bind_error h1]
          have e2 : CMM.reset (some p) false t = (.error (s.view.missing [] p), t) := by
            show (M.get >>= fun t => M.liftE (CMM.getDefault t p false) >>= fun value => CMM.set p value false) t = _
            rw [M.bind_ok (M.get_run t), M.bind_run, M.liftE_run, h2]
          simp only [HS.answer, CM.answer, HS.step, CM.step]
          rw [e1, e2]
          exact ⟨rfl, hl⟩

end Verif.Model
