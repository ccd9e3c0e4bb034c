import Verif.Lemmas.ObjectReset

/-
What the calls of a config manager with objects do, one call at a time.
-/

namespace Verif.Model
open Verif.Py
variable {V : Type}

namespace HS

/-- Changing a config that is at no place changes nothing that can be asked for. -/
theorem view_orphan {s : HS V} (hi : HInv s) {r : Nat} (hr : ∀ a, a.Clean s.rootName → s.place a ≠ some r)
    {c0 : Conf V} (h : s.heap[r]? = some (.conf c0)) (c : Conf V) : (s.write r c).view = s.view := by
  have hk := kept_write hi h c
  have hslot : ∀ q, (s.write r c).view.slot q = s.view.slot q := by
    intro q
    by_cases hq : CleanPath s.rootName q
    · rw [view_slot (s := s.write r c) hq, view_slot hq]
      unfold hslot
      rw [hk.find q hq]
      cases hf : s.find q with
      | none => rfl
      | some v =>
        have h1 := hr (.item q) hq
        have h2 := hr (.cfg q) hq
        simp only [place, hf] at h1 h2
        rcases find_cases hf with rfl | ⟨k, rfl⟩
        · simp only at h2 ⊢
          show (s.write r c).slotAt s.section_ = _
          rw [slotAt_write h, if_neg h2, if_neg]
          intro e
          obtain ⟨cfg, attrs, map, hs⟩ := hi.root
          rw [e, h] at hs
          cases hs
        · simp only at h1 h2 ⊢
          rw [slotAt_write h, if_neg h2, if_neg]
          intro e
          exact h1 (by rw [e])
    · show (if CleanPath s.rootName q then _ else _) = (if CleanPath s.rootName q then _ else _)
      rw [if_neg hq, if_neg hq]
  have hloc : (s.write r c).view.localConf = s.view.localConf := by
    show ((s.write r c).confAt s.localConf).getD _ = _
    rw [confAt_write h, if_neg]
    · rfl
    · intro e
      exact hr .loc trivial (by simp [place, e])
  have e1 : (s.write r c).view = ⟨(s.write r c).view.fs, (s.write r c).view.rootName, (s.write r c).view.localConf,
    (s.write r c).view.slot⟩ := rfl
  rw [e1, hloc, funext hslot]
  rfl

/-- A path in use leads to an item, to a section or to nothing. -/
theorem target_or {s : HS V} (hi : HInv s) {p : List String} (hp : CleanPath s.rootName p) :
    (∃ pl, s.Target (some p) pl) ∨ ∀ r, s.find p ≠ some (.ref r) := by
  by_cases hf : ∃ r, s.find p = some (.ref r)
  · obtain ⟨r, hf⟩ := hf
    have hne : p ≠ [] := by rintro rfl; rw [find_nil] at hf; cases hf
    have hb := hi.find_bound hp hf
    left
    cases ho : s.heap[r]? with
    | none => rw [List.getElem?_eq_none_iff] at ho; omega
    | some o =>
      have hs : s.hslot p = s.slotAt r := by unfold hslot; rw [hf]
      unfold slotAt at hs
      rw [ho] at hs
      cases o with
      | conf c => exact ⟨_, .item hp (by rw [hs]; rfl)⟩
      | file l => exact ⟨_, .item hp (by rw [hs]; rfl)⟩
      | sect nm cfg attrs map => exact ⟨_, .sect hp hne hs⟩
  · exact .inr (fun r h => hf ⟨r, h⟩)

theorem Target.ne_nil {s : HS V} (hi : HInv s) {p : List String} {pl : Place} (h : s.Target (some p) pl) : p ≠ [] := by
  cases h with
  | item hp h =>
    rintro rfl
    obtain ⟨rc, attrs, map, hs⟩ := hi.root
    simp [HS.hslot, HS.find_nil, HS.slotAt, hs, Slot.isItem] at h
  | sect _ hne _ => exact hne

end HS

namespace HM

/-- Asking for something that is not there raises. -/
theorem getRef_none {s : HS V} {p : List String} (h : ∀ r, s.find p ≠ some (.ref r)) :
    ∃ e, getRef p s = (.error e, s) := by
  unfold getRef
  rw [M.bind_ok (M.get_run s), M.bind_run, M.liftE_run]
  unfold HS.find at h
  cases hw : s.walk .mgr p with
  | error e => exact ⟨e, rfl⟩
  | ok v =>
    rw [hw] at h
    cases v with
    | ref r => exact absurd rfl (h r)
    | mgr => exact ⟨_, rfl⟩
    | none => exact ⟨_, rfl⟩
    | other => exact ⟨_, rfl⟩

theorem getDefault_none {s : HS V} {p : List String} (h : ∀ r, s.find p ≠ some (.ref r)) :
    ∃ e, getDefault p false s = (.error e, s) := by
  unfold getDefault
  rw [M.bind_ok (M.get_run s)]
  simp only
  rw [M.bind_run, M.liftE_run]
  unfold HS.find at h
  cases hw : s.walk .mgr p with
  | error e => exact ⟨e, by simp⟩
  | ok v =>
    rw [hw] at h
    cases v with
    | ref r => exact absurd rfl (h r)
    | mgr => exact ⟨_, rfl⟩
    | none => exact ⟨_, rfl⟩
    | other => exact ⟨_, rfl⟩

theorem getDefault_any {s : HS V} {p : List String} {b : Bool} (h : ∀ r, s.find p ≠ some (.ref r))
    (hw : ¬ (b = true ∧ s.walk .mgr p = .error .keyError)) : ∃ e, getDefault p b s = (.error e, s) := by
  unfold getDefault
  rw [M.bind_ok (M.get_run s)]
  simp only
  rw [M.bind_run, M.liftE_run]
  unfold HS.find at h
  cases hw' : s.walk .mgr p with
  | error e =>
    refine ⟨e, ?_⟩
    simp only
    rw [if_neg (fun h => hw ⟨h.2, by rw [hw', h.1]⟩)]
  | ok v =>
    rw [hw'] at h
    cases v with
    | ref r => exact absurd rfl (h r)
    | mgr => exact ⟨_, rfl⟩
    | none => exact ⟨_, rfl⟩
    | other => exact ⟨_, rfl⟩

/-- What resetting a section that has a config raises: what reading its folder raises, or `TypeError`. -/
def resetSectErr (fs : Files V) (p : List String) : PyErr :=
  match fs.tree.at? p with
  | some t => match fromFiles fs p t with
    | .error e => e
    | .ok _ => .typeError
  | none => .typeError

/-- `reset` of a section that has a config. -/
theorem reset_sect_err [BEq V] {s : HS V} (hi : HInv s) {p : List String} (hp : CleanPath s.rootName p) (hne : p ≠ [])
    {c : Conf V} (h : s.hslot p = .sect (some c)) (b : Bool) :
    ∃ s', HM.reset (some p) b s = (.error (resetSectErr s.fs p), s') ∧ s.Still s' := by
  have hg := getRef_sect hi hp hne h
  obtain ⟨nm, rc, attrs, map, ho, hpl, hcfg⟩ := HS.find_of_sect hi hp h
  rcases ho with ⟨e, -⟩ | ⟨r, hf, ho⟩
  · exact absurd e hne
  cases rc with
  | none => cases hcfg
  | some k =>
  obtain ⟨c', hc'⟩ := hi.cfg p k hp hpl
  show ∃ s', (getDefault p b >>= fun value => set p value b) s = _ ∧ _
  have hdef : getDefault p b s = (.error (resetSectErr s.fs p), s) ∨ (resetSectErr s.fs p = .typeError ∧ ∃ t v nm' cfg' a' m',
      getDefault p b s = (.ok v, { s with heap := s.heap ++ t }) ∧ (s.heap ++ t)[v]? = some (.sect nm' cfg' a' m')) := by
    unfold getDefault resetSectErr
    rw [M.bind_ok (M.get_run s)]
    simp only
    rw [M.bind_run, M.liftE_run, HS.walk_of_find hf]
    simp only [HS.obj, ho]
    rw [M.bind_run, M.liftE_run]
    have key : ∀ n : Node V, FreshNode n → (∃ c m, n = .sect c [] m) → ∃ t nm' cfg' a' m',
        (allocNode (p.getLast?.getD s.rootName) s.heap n).2 = s.heap ++ t ∧
        (s.heap ++ t)[(allocNode (p.getLast?.getD s.rootName) s.heap n).1]? = some (.sect nm' cfg' a' m') := by
      intro n hn hsn
      obtain ⟨hb, t, ht⟩ := hn.builds (p.getLast?.getD s.rootName) s.heap
      obtain ⟨c0, m0, rfl⟩ := hsn
      rw [ht] at hb
      cases hb with
      | sect rc rmap k lo' hi' h1 _ _ _ _ _ _ => exact ⟨t, _, _, _, _, ht, h1⟩
    cases hat : s.fs.tree.at? p with
    | none =>
      simp only
      obtain ⟨t, nm', cfg', a', m', h1, h2⟩ := key (.sect none [] []) (.sect none [] (by simp)) ⟨_, _, rfl⟩
      refine .inr ⟨by trivial, t, (allocNode (p.getLast?.getD s.rootName) s.heap (.sect none [] [])).1, nm', cfg', a', m', ?_, h2⟩
      rw [M.bind_ok (M.modify_run _ _)]
      rw [h1]
      rfl
    | some tr =>
      simp only
      cases hfr : fromFiles s.fs p tr with
      | error e => exact .inl rfl
      | ok n =>
        simp only
        have hsn : ∃ c m, n = .sect c [] m := by
          obtain ⟨b, fl, ds⟩ := tr
          simp only [fromFiles] at hfr
          split at hfr
          · cases hfr
          · split at hfr
            · cases hfr
            · cases hfr; exact ⟨_, _, rfl⟩
        obtain ⟨t, nm', cfg', a', m', h1, h2⟩ := key n (fromFiles_freshNode _ _ _ _ hfr) hsn
        refine .inr ⟨by trivial, t, (allocNode (p.getLast?.getD s.rootName) s.heap n).1, nm', cfg', a', m', ?_, h2⟩
        rw [M.bind_ok (M.modify_run _ _)]
        rw [h1]
        rfl
  rcases hdef with hd | ⟨he, t, v, nm', cfg', a', m', hd, hv⟩
  · exact ⟨s, by rw [M.bind_error hd], HS.still_refl hi⟩
  · refine ⟨{ s with heap := s.heap ++ t }, ?_, HS.still_alloc hi t⟩
    rw [M.bind_ok hd, he]
    have hst := HS.still_alloc hi t
    have hslot' : HS.hslot { s with heap := s.heap ++ t } p = .sect (some c) := by
      have e1 := congrFun (congrArg View.slot hst.view) p
      have hp' : CleanPath ({ s with heap := s.heap ++ t } : HS V).rootName p := hp
      rw [HS.view_slot hp', HS.view_slot hp, h] at e1
      exact e1
    have hg' := getRef_sect hst.inv (p := p) hp hne hslot'
    rw [hst.place (.cfg p) hp, hpl] at hg'
    unfold HM.set
    have htc : M.tryCatch (getRef p) (fun e => if e = .keyError then pure none else M.raise e) { s with heap := s.heap ++ t } =
        (.ok (some k), { s with heap := s.heap ++ t }) := by
      unfold M.tryCatch
      rw [hg']
    rw [M.bind_ok htc]
    have hck : ({ s with heap := s.heap ++ t } : HS V).heap[k]? = some (.conf c') := by
      show (s.heap ++ t)[k]? = _
      rw [List.getElem?_append_left (List.getElem?_eq_some_iff.1 hc').1]
      exact hc'
    show (deref k >>= _) _ = _
    rw [M.bind_ok (deref_run hck), M.bind_ok (M.get_run _)]
    simp only [hv]
    rfl

theorem reset_sect [BEq V] {s : HS V} (hi : HInv s) {p : List String} (hp : CleanPath s.rootName p) (hne : p ≠ [])
    {c : Conf V} (h : s.hslot p = .sect (some c)) (b : Bool) :
    ∃ e s', HM.reset (some p) b s = (.error e, s') ∧ s.Still s' := by
  obtain ⟨s', h1, h2⟩ := reset_sect_err hi hp hne h b
  exact ⟨_, s', h1, h2⟩

end HM

/-! ### Effects -/

/-- Calls of the manager, and changes that users make to config objects they hold. -/
inductive HAct (V : Type) where
  | op (o : CMOp V)
  | touch (r : Nat) (f : Conf V → Conf V)

/-- The state after one of these. -/
def HS.act [BEq V] (s : HS V) : HAct V → HS V
  | .op o => s.step o
  | .touch r f => match s.heap[r]? with
    | some (.conf c) => s.write r (f c)
    | _ => s

def HS.acts [BEq V] (s : HS V) (l : List (HAct V)) : HS V := l.foldl HS.act s

/-- The path that a call is about has no parts that are attributes of the manager or of sections. -/
def CleanArg (rn : String) : Option (List String) → Prop
  | none => True
  | some p => CleanPath rn p

/-- The calls that the theorems are about: paths as in `CleanPath`. -/
def HS.Covered (s : HS V) : HAct V → Prop
  | .op (.update _ p _ _) => CleanArg s.rootName p
  | .op (.refresh p) => CleanPath s.rootName p
  | .op (.get p) => CleanPath s.rootName p
  | .op (.pop _ p) => CleanArg s.rootName p
  | .op (.reset p _) => CleanArg s.rootName p
  | .op (.edit _) => True
  | .touch _ f => ∀ c, (f c).file = c.file

def HS.Covers [BEq V] (s : HS V) : List (HAct V) → Prop
  | [] => True
  | a :: l => s.Covered a ∧ (s.act a).Covers l

/-- The call resets the config at the place: it is a reset of that item without creation, or a reset of the section (one that has
no config) at the path or around it. -/
def HS.Resets (s : HS V) : HAct V → Place → Prop
  | .op (.reset none _), pl => pl = .loc
  | .op (.reset (some p) b), pl => (b = false ∧ pl = .item p) ∨ (s.hslot p = .sect none ∧ pl.Under p)
  | _, _ => False

/-- No call resets the config at the place. -/
def HS.Spares [BEq V] (s : HS V) (pl : Place) : List (HAct V) → Prop
  | [] => True
  | a :: l => ¬ s.Resets a pl ∧ (s.act a).Spares pl l

theorem HS.Spares.cfg [BEq V] {p : List String} {l : List (HAct V)} : ∀ {s : HS V}, s.Spares (.item p) l → s.Spares (.cfg p) l := by
  induction l with
  | nil => intro s _; trivial
  | cons a l ih =>
    intro s h
    refine ⟨fun hr => h.1 ?_, ih h.2⟩
    cases a with
    | touch r f => exact hr
    | op o =>
      cases o with
      | reset q b =>
        cases q with
        | none => cases hr
        | some q =>
          rcases hr with ⟨-, e⟩ | ⟨h1, h2⟩
          · cases e
          · exact .inr ⟨h1, h2⟩
      | _ => exact hr

/-- What a call can do to the objects. -/
inductive HS.Effect (s s' : HS V) (a : HAct V) : Prop where
  | still : s.Still s' → Effect s s' a
  | done (pl : Place) (r : Nat) (c : Conf V) : pl.Clean s.rootName → c.file = pl.file → s.Done s' pl r c → Effect s s' a
  | replaced (pl : Place) (r : Nat) (c : Conf V) : pl.Clean s.rootName → c.file = pl.file → s.Replaced s' pl r c →
      s.Resets a pl → Effect s s' a
  | grown (p : List String) (n : Node V) : p ≠ [] → NodeOK p n → s.Grown s' p n →
      (∀ pl : Place, pl.Clean s.rootName → pl.Under p → s.Resets a pl ∨ s.place pl = none) → Effect s s' a
  | edit (fs : Files V) : s' = { s with fs } → Effect s s' a

theorem kUpdate_file [BEq V] (d : Option (Dict String V)) (persist : Bool) (kw : Dict String V) (c : Conf V) :
    (kUpdate d persist kw c).2.file = c.file := by
  unfold kUpdate
  split
  · rfl
  · rfl
  · split
    · rfl
    · cases persist <;> rfl

theorem kRefresh_file [BEq V] (fs : Files V) (c : Conf V) : (kRefresh fs c).2.file = c.file := by
  unfold kRefresh
  split
  · rfl
  · split
    · rfl
    · split
      · rfl
      · split
        · rfl
        · rename_i h
          unfold Conf.refresh at h
          dsimp only at h
          split at h
          · cases h
          · cases h; rfl

theorem kPop_file (key : String) (c : Conf V) : (kPop key c).2.file = c.file := by
  unfold kPop
  split <;> rfl

theorem kGet_file (ls : List (Option (Conf V))) (c : Conf V) : (kGet ls c).file = c.file := by
  unfold kGet
  split
  · rfl
  · exact CMM.foldl_applyLevel_file _ _

theorem HS.ownAt_clean {s : HS V} (ho : OwnFiles s.view) {pl : Place} (hp : pl.Clean s.rootName) {c : Conf V}
    (h : s.view.ownAt pl = .ok (some c)) : c.file = pl.file := ho.ownAt_file hp h

namespace HS
variable {s : HS V}

theorem effect_update [BEq V] (hi : HInv s) (ho : OwnFiles s.view) (d : Option (Dict String V)) {p : Option (List String)}
    (hp : CleanArg s.rootName p) (persist : Bool) (kw : Dict String V) (a : HAct V) :
    s.Effect (HM.update d p persist kw s).2 a := by
  have main : ∀ pl, s.Target p pl → s.Effect (HM.update d p persist kw s).2 a := by
    intro pl ht
    have hrun := HM.target_run hi ht
    cases hown : s.view.ownAt pl with
    | error e =>
      rw [hown] at hrun
      have : (HM.update d p persist kw s).2 = s := by unfold HM.update; rw [M.bind_error hrun]
      rw [this]; exact .still (still_refl hi)
    | ok oc =>
      rw [hown] at hrun
      cases oc with
      | none =>
        have : (HM.update d p persist kw s).2 = s := by unfold HM.update; rw [M.bind_ok hrun]; rfl
        rw [this]; exact .still (still_refl hi)
      | some c =>
        obtain ⟨r, s1, hg, hd⟩ := hrun
        rw [HM.update_run hg hd.conf]
        refine .done pl r _ ht.clean ?_ (hd.write ht.clean _)
        rw [kUpdate_file]; exact ho.ownAt_file ht.clean hown
  cases p with
  | none => exact main _ .loc
  | some p =>
    rcases target_or hi hp with ⟨pl, ht⟩ | hn
    · exact main pl ht
    · obtain ⟨e, he⟩ := HM.getRef_none hn
      have : (HM.update d (some p) persist kw s).2 = s := by
        unfold HM.update; rw [M.bind_error (show HM.getProjectOrLocal (some p) s = _ from he)]
      rw [this]; exact .still (still_refl hi)

theorem effect_pop [BEq V] (hi : HInv s) (ho : OwnFiles s.view) (key : String) {p : Option (List String)}
    (hp : CleanArg s.rootName p) (a : HAct V) : s.Effect (HM.pop key p s).2 a := by
  have main : ∀ pl, s.Target p pl → s.Effect (HM.pop key p s).2 a := by
    intro pl ht
    have hrun := HM.target_run hi ht
    cases hown : s.view.ownAt pl with
    | error e =>
      rw [hown] at hrun
      have : (HM.pop key p s).2 = s := by unfold HM.pop; rw [M.bind_error hrun]
      rw [this]; exact .still (still_refl hi)
    | ok oc =>
      rw [hown] at hrun
      cases oc with
      | none =>
        have : (HM.pop key p s).2 = s := by unfold HM.pop; rw [M.bind_ok hrun]; rfl
        rw [this]; exact .still (still_refl hi)
      | some c =>
        obtain ⟨r, s1, hg, hd⟩ := hrun
        rw [HM.pop_run hg hd.conf]
        refine .done pl r _ ht.clean ?_ (hd.write ht.clean _)
        rw [kPop_file]; exact ho.ownAt_file ht.clean hown
  cases p with
  | none => exact main _ .loc
  | some p =>
    rcases target_or hi hp with ⟨pl, ht⟩ | hn
    · exact main pl ht
    · obtain ⟨e, he⟩ := HM.getRef_none hn
      have : (HM.pop key (some p) s).2 = s := by
        unfold HM.pop; rw [M.bind_error (show HM.getProjectOrLocal (some p) s = _ from he)]
      rw [this]; exact .still (still_refl hi)

theorem effect_refresh [BEq V] (hi : HInv s) (ho : OwnFiles s.view) {p : List String}
    (hp : CleanPath s.rootName p) (a : HAct V) : s.Effect (HM.refresh p s).2 a := by
  rcases target_or hi hp with ⟨pl, ht⟩ | hn
  · have hrun := HM.target_run hi ht
    cases hown : s.view.ownAt pl with
    | error e =>
      rw [hown] at hrun
      have : (HM.refresh p s).2 = s := by unfold HM.refresh; rw [M.bind_error hrun]
      rw [this]; exact .still (still_refl hi)
    | ok oc =>
      rw [hown] at hrun
      cases oc with
      | none =>
        have : (HM.refresh p s).2 = s := by unfold HM.refresh; rw [M.bind_ok hrun]; rfl
        rw [this]; exact .still (still_refl hi)
      | some c =>
        obtain ⟨r, s1, hg, hd⟩ := hrun
        rw [HM.refresh_run hg hd.conf]
        refine .done pl r _ ht.clean ?_ (hd.write ht.clean _)
        rw [kRefresh_file]; exact ho.ownAt_file ht.clean hown
  · obtain ⟨e, he⟩ := HM.getRef_none hn
    have : (HM.refresh p s).2 = s := by
      unfold HM.refresh; rw [M.bind_error (show HM.getProjectOrLocal (some p) s = _ from he)]
    rw [this]; exact .still (still_refl hi)

theorem effect_get (hi : HInv s) (ho : OwnFiles s.view) {p : List String}
    (hp : CleanPath s.rootName p) (a : HAct V) : s.Effect (HM.get p s).2 a := by
  rcases target_or hi hp with ⟨pl, ht⟩ | hn
  · have hrun := HM.get_run hi ho ht
    cases hown : s.view.ownAt pl with
    | error e => rw [hown] at hrun; simp only at hrun; rw [hrun]; exact .still (still_refl hi)
    | ok oc =>
      rw [hown] at hrun
      cases oc with
      | none => simp only at hrun; rw [hrun]; exact .still (still_refl hi)
      | some c =>
        obtain ⟨r, s1, hg, hd⟩ := hrun
        rw [hg]
        refine .done pl r _ ht.clean ?_ hd
        rw [kGet_file]; exact ho.ownAt_file ht.clean hown
  · obtain ⟨e, he⟩ := HM.getRef_none hn
    have : (HM.get p s).2 = s := by unfold HM.get; rw [M.bind_error he]
    rw [this]; exact .still (still_refl hi)

theorem effect_reset [BEq V] (hi : HInv s) (ho : OwnFiles s.view) {p : List String}
    (hp : CleanPath s.rootName p) (b : Bool) : s.Effect (HM.reset (some p) b s).2 (.op (.reset (some p) b)) := by
  rcases target_or hi hp with ⟨pl, ht⟩ | hn
  · cases ht with
    | item _ hit =>
      cases b with
      | true =>
        have hdef := HM.getDefault_item hi hit true
        cases hl : s.fs.load (.item p) with
        | error e =>
          rw [hl] at hdef
          have : (HM.reset (some p) true s).2 = s := by
            show ((HM.getDefault p true >>= fun value => HM.set p value true) s).2 = s
            rw [M.bind_error hdef]
          rw [this]; exact .still (still_refl hi)
        | ok v =>
          obtain ⟨c, hown⟩ := ho.own_load (p := p) hp.1 (by rw [view_slot hp]; exact hit) hl
          have hcf : c.file = Place.file (.item p) :=
            ho.ownAt_file (pl := .item p) hp (by simp only [View.ownAt, hown])
          have hrun := HM.reset_item_create hi hp hit hl hown
          cases hdw : CMM.determineWouldUpdate c none v.values with
          | error e =>
            rw [hdw] at hrun
            obtain ⟨r, s', h1, h2, -⟩ := hrun
            rw [h1]
            exact .done (.item p) r c hp hcf h2
          | ok b =>
            rw [hdw] at hrun
            obtain ⟨r, s', h1, h2, -⟩ := hrun
            rw [h1]
            exact .done (.item p) r c hp hcf h2
      | false =>
        have hrun := HM.reset_run hi hp hit
        cases hl : s.fs.load (.item p) with
        | error e => rw [hl] at hrun; simp only at hrun; rw [hrun]; exact .still (still_refl hi)
        | ok v =>
          have hvf := Files.load_file hl
          rw [hl] at hrun
          cases hown : s.view.own p with
          | error e =>
            rw [hown] at hrun
            simp only at hrun
            by_cases he : e = .keyError
            · rw [if_pos he] at hrun
              obtain ⟨s', h1, h2⟩ := hrun
              rw [h1]
              exact .replaced (.item p) _ _ hp hvf h2 (.inl ⟨rfl, rfl⟩)
            · rw [if_neg he] at hrun
              obtain ⟨s', h1, h2⟩ := hrun
              rw [h1]
              exact .still h2
          | ok c =>
            have hcf : c.file = Place.file (.item p) :=
              ho.ownAt_file (pl := .item p) hp (by simp only [View.ownAt, hown])
            rw [hown] at hrun
            simp only at hrun
            cases hdw : CMM.determineWouldUpdate c none v.values with
            | error e =>
              rw [hdw] at hrun
              obtain ⟨r, s', h1, h2⟩ := hrun
              rw [h1]
              exact .done (.item p) r c hp hcf h2
            | ok b =>
              rw [hdw] at hrun
              cases b with
              | true =>
                obtain ⟨s', h1, h2⟩ := hrun
                rw [h1]
                exact .replaced (.item p) _ _ hp hvf h2 (.inl ⟨rfl, rfl⟩)
              | false =>
                obtain ⟨r, s', h1, h2, -⟩ := hrun
                rw [h1]
                exact .done (.item p) r c hp hcf h2
    | @sect _ cfg _ hne hsl =>
      cases cfg with
      | none =>
        have hrun := HM.reset_sect_none hi hp hne hsl b
        cases hn : sectNode s.fs p with
        | error e => rw [hn] at hrun; simp only at hrun; rw [hrun]; exact .still (still_refl hi)
        | ok n =>
          rw [hn] at hrun
          obtain ⟨r, s', h1, -, ⟨-, h2, -⟩ | ⟨h2, -⟩⟩ := hrun
          · rw [h1]; exact .still h2
          · rw [h1]; exact .grown p n hne (sectNode_ok hn) h2 (fun pl _ hu => .inl (.inr ⟨hsl, hu⟩))
      | some c =>
        obtain ⟨e, s', h1, h2⟩ := HM.reset_sect hi hp hne hsl b
        rw [h1]
        exact .still h2
  · by_cases hw : b = true ∧ s.walk .mgr p = .error .keyError
    · obtain ⟨rfl, hw⟩ := hw
      have hrun := HM.reset_missing_create hi hp hw
      cases hl : s.fs.load (.item p) with
      | error e => rw [hl] at hrun; simp only at hrun; rw [hrun]; exact .still (still_refl hi)
      | ok c =>
        rw [hl] at hrun
        obtain ⟨q, x, r, s', rfl, -, h2, h3, h4, -⟩ := hrun
        rw [h3]
        refine .grown (q ++ [x]) _ (by simp) (nest_ok r (.conf (Files.load_file hl))) h4 ?_
        intro pl hcl hu
        refine .inr ?_
        have hnone : ∀ rest, s.find (q ++ [x] ++ rest) = none := fun rest => by
          cases hf : s.find (q ++ [x] ++ rest) with
          | none => rfl
          | some v =>
            obtain ⟨v', hv'⟩ := HS.find_prefix rest (q ++ [x]) hf
            rw [h2] at hv'; cases hv'
        obtain ⟨b, rest, rfl⟩ := Place.under_iff.1 hu
        cases b
        · simp only [place, hnone, Bool.false_eq_true, if_false]
        · simp only [place, hnone, if_true]
    · obtain ⟨e, he⟩ := HM.getDefault_any hn hw
      have : (HM.reset (some p) b s).2 = s := by
        show ((HM.getDefault p b >>= fun value => HM.set p value b) s).2 = s
        rw [M.bind_error he]
      rw [this]; exact .still (still_refl hi)

theorem effect_touch [BEq V] (hi : HInv s) (ho : OwnFiles s.view) (r : Nat) {f : Conf V → Conf V}
    (hf : ∀ c, (f c).file = c.file) : s.Effect (s.act (.touch r f)) (.touch r f) := by
  unfold act
  by_cases hr : ∃ c, s.heap[r]? = some (.conf c)
  · obtain ⟨c, hr⟩ := hr
    simp only [hr]
    by_cases hpl : ∃ a, a.Clean s.rootName ∧ s.place a = some r
    · obtain ⟨a, ha, hpl⟩ := hpl
      have hd : s.Done s a r c := by
        refine ⟨hi, rfl, rfl, hpl, hr, ?_, fun _ _ _ => rfl, fun _ => hpl, Nat.le_refl _, ?_, fun _ _ h _ => h⟩
        · have := view_write hi ha hpl hr c
          rw [write_self hr] at this
          exact this
        · rintro ⟨p, l, rfl, hs⟩
          exfalso
          simp only [place] at hpl
          cases hfd : s.find p with
          | none => rw [hfd] at hpl; cases hpl
          | some v =>
            rw [hfd] at hpl
            unfold hslot at hs
            rw [hfd] at hs
            cases v with
            | ref k =>
              simp only [Option.some.injEq] at hpl
              subst hpl
              simp [slotAt, hr] at hs
            | mgr => cases hpl
            | none => cases hpl
            | other => cases hpl
      refine .done a r _ ha ?_ (hd.write ha _)
      rw [hf]
      have hslots : s.view.ownAt a = .ok (some c) := by
        cases a with
        | item p =>
          simp only [place] at hpl
          cases hfd : s.find p with
          | none => rw [hfd] at hpl; cases hpl
          | some v =>
            rw [hfd] at hpl
            cases v with
            | ref k =>
              simp only [Option.some.injEq] at hpl
              subst hpl
              have : s.view.slot p = .conf c := by
                rw [view_slot ha]; unfold hslot; rw [hfd]; simp [slotAt, hr]
              simp only [View.ownAt, View.own, this]
            | mgr => cases hpl
            | none => cases hpl
            | other => cases hpl
        | cfg p =>
          have : s.view.slot p = .sect (some c) := by
            rw [view_slot ha]
            unfold hslot
            simp only [place] at hpl
            have key : ∀ k, s.cfgOf k = some r → s.slotAt k = .sect (some c) := by
              intro k hk
              unfold cfgOf at hk
              unfold slotAt
              split at hk
              · rename_i hk'
                rw [hk']
                simp [hk, confAt, hr]
              · cases hk
            cases hfd : s.find p with
            | none => rw [hfd] at hpl; cases hpl
            | some v =>
              rw [hfd] at hpl
              cases v with
              | ref k => exact key k hpl
              | mgr => exact key _ hpl
              | none => cases hpl
              | other => cases hpl
          simp only [View.ownAt, View.sectCfg, this]
        | loc =>
          simp only [place, Option.some.injEq] at hpl
          subst hpl
          simp only [View.ownAt]
          congr 2
          show (s.confAt s.localConf).getD _ = _
          rw [confAt_some.2 hr]; rfl
        | root =>
          exfalso
          simp only [place, Option.some.injEq] at hpl
          obtain ⟨cfg, attrs, map, hs⟩ := hi.root
          rw [hpl, hr] at hs
          cases hs
      exact ho.ownAt_file ha hslots
    · have hpl' : ∀ a, a.Clean s.rootName → s.place a ≠ some r := fun a ha e => hpl ⟨a, ha, e⟩
      refine .still ⟨inv_write hi hr _, rfl, rfl, view_orphan hi hpl' hr _, place_write hi hr _, ?_⟩
      simp [write]
  · have : (match s.heap[r]? with | some (.conf c) => s.write r (f c) | _ => s) = s := by
      split
      · rename_i c h; exact absurd ⟨c, h⟩ hr
      · rfl
    show s.Effect (match s.heap[r]? with | some (.conf c) => s.write r (f c) | _ => s) _
    rw [this]
    exact .still (still_refl hi)

theorem effect [BEq V] (hi : HInv s) (ho : OwnFiles s.view) {a : HAct V} (h : s.Covered a) : s.Effect (s.act a) a := by
  cases a with
  | touch r f => exact effect_touch hi ho r h
  | op o =>
    cases o with
    | update d p persist kw => exact effect_update hi ho d h persist kw _
    | refresh p => exact effect_refresh hi ho h _
    | get p => exact effect_get hi ho h _
    | pop key p => exact effect_pop hi ho key h _
    | edit fs => exact .edit fs rfl
    | reset p b =>
      cases p with
      | none =>
        obtain ⟨s', h1, h2⟩ := HM.reset_local_run hi b
        show s.Effect (HM.reset none b s).2 _
        rw [h1]
        exact .replaced .loc _ _ trivial rfl h2 rfl
      | some p => exact effect_reset hi ho h b

/-! ### Histories -/

/-- What holds throughout. -/
structure Fine (s : HS V) : Prop where
  inv : HInv s
  own : OwnFiles s.view

theorem Effect.fine {s' : HS V} {a : HAct V} (h : s.Effect s' a) (hf : s.Fine) : s'.Fine := by
  cases h with
  | still h => exact ⟨h.inv, by rw [h.view]; exact hf.own⟩
  | done pl r c hp hc h => exact ⟨h.inv, by rw [h.view]; exact hf.own.put hc⟩
  | replaced pl r c hp hc h _ => exact ⟨h.inv, by rw [h.view]; exact hf.own.put hc⟩
  | grown p n hne hn h _ => exact ⟨h.inv, by rw [h.view]; exact hf.own.graft hne hn⟩
  | edit fs h =>
    subst h
    obtain ⟨h1, h2, -⟩ := HS.edit_run hf.inv fs
    refine ⟨h1, ?_⟩
    rw [h2]
    exact ⟨hf.own.file, hf.own.conf, hf.own.sect, hf.own.localConf⟩

theorem Effect.rootName {s' : HS V} {a : HAct V} (h : s.Effect s' a) : s'.rootName = s.rootName := by
  cases h with
  | still h => exact h.rootName
  | done pl r c hp hc h => exact h.rootName
  | replaced pl r c hp hc h _ => exact h.rootName
  | grown p n hne hn h _ => exact h.rootName
  | edit fs h => subst h; rfl

theorem Effect.length {s' : HS V} {a : HAct V} (h : s.Effect s' a) : s.heap.length ≤ s'.heap.length := by
  cases h with
  | still h => exact h.length
  | done pl r c hp hc h => exact h.length
  | replaced pl r c hp hc h _ => exact h.length
  | grown p n hne hn h _ => exact h.length
  | edit fs h => subst h; exact Nat.le_refl _

theorem acts_cons [BEq V] (s : HS V) (a : HAct V) (l : List (HAct V)) : s.acts (a :: l) = (s.act a).acts l := rfl

theorem Covers.fine [BEq V] {l : List (HAct V)} : ∀ {s : HS V}, s.Covers l → s.Fine → (s.acts l).Fine := by
  induction l with
  | nil => intro s _ h; exact h
  | cons a l ih =>
    intro s h hf
    exact ih h.2 ((effect hf.inv hf.own h.1).fine hf)

theorem Covers.rootName [BEq V] {l : List (HAct V)} : ∀ {s : HS V}, s.Covers l → s.Fine → (s.acts l).rootName = s.rootName := by
  induction l with
  | nil => intro s _ _; rfl
  | cons a l ih =>
    intro s h hf
    have he := effect hf.inv hf.own h.1
    rw [acts_cons, ih h.2 (he.fine hf), he.rootName]

/-- The place has this config object. -/
structure Holds (s : HS V) (pl : Place) (r : Nat) : Prop where
  place : s.place pl = some r
  conf : ∃ c, s.heap[r]? = some (.conf c)

theorem Holds.not_file {pl : Place} {r : Nat} (h : s.Holds pl r) (p : List String) (l : FileLoc) (e : pl = .item p) :
    s.hslot p ≠ .file l := by
  subst e
  intro hs
  obtain ⟨c, hc⟩ := h.conf
  have hp := h.place
  simp only [HS.place] at hp
  cases hfd : s.find p with
  | none => rw [hfd] at hp; cases hp
  | some v =>
    rw [hfd] at hp
    unfold hslot at hs
    rw [hfd] at hs
    cases v with
    | ref k =>
      simp only [Option.some.injEq] at hp
      subst hp
      simp [slotAt, hc] at hs
    | mgr => cases hp
    | none => cases hp
    | other => cases hp

/-- An object that is the config at a place stays the config of that place until that is reset. -/
theorem Effect.holds {s' : HS V} {a : HAct V} (he : s.Effect s' a) (hf : s.Fine) {pl : Place} (hp : pl.Clean s.rootName) {r : Nat}
    (h : s.Holds pl r) (hno : ¬ s.Resets a pl) : s'.Holds pl r := by
  have hconfs : ∀ {s' : HS V}, s'.Fine → s'.rootName = s.rootName → s'.place pl = some r → (∀ p, pl = .item p → s'.view.slot p = s.view.slot p) →
      s'.Holds pl r := by
    intro s' hf' hrn hpl hv
    refine ⟨hpl, ?_⟩
    cases pl with
    | loc => simp only [HS.place, Option.some.injEq] at hpl; subst hpl; exact hf'.inv.loc
    | cfg p => exact hf'.inv.cfg p r (by rw [hrn]; exact hp) hpl
    | root =>
      exfalso
      have hpp := h.place
      obtain ⟨c, hc⟩ := h.conf
      obtain ⟨cfg, attrs, map, hs⟩ := hf.inv.root
      simp only [HS.place, Option.some.injEq] at hpp
      rw [hpp, hc] at hs; cases hs
    | item p =>
      have hv := hv p rfl
      obtain ⟨c, hc⟩ := h.conf
      have e1 : s.hslot p = .conf c := by
        have hpp := h.place
        simp only [HS.place] at hpp
        unfold hslot
        cases hfd : s.find p with
        | none => rw [hfd] at hpp; cases hpp
        | some v =>
          rw [hfd] at hpp
          cases v with
          | ref k => simp only [Option.some.injEq] at hpp; subst hpp; simp [slotAt, hc]
          | mgr => cases hpp
          | none => cases hpp
          | other => cases hpp
      have e2 : s'.hslot p = .conf c := by
        rw [← view_slot (s := s') (by rw [hrn]; exact hp), hv, view_slot hp, e1]
      obtain ⟨k, hk, ⟨c', hc', -⟩ | ⟨l, -, hs⟩⟩ := find_of_item hf'.inv (p := p) (by rw [e2]; rfl)
      · simp only [HS.place, hk, Option.some.injEq] at hpl
        subst hpl
        exact ⟨c', hc'⟩
      · rw [e2] at hs; cases hs
  have hfine := he.fine hf
  have hrn := he.rootName
  cases he with
  | still hst => exact hconfs hfine hrn (by rw [hst.place pl hp]; exact h.place) (fun p _ => by rw [hst.view])
  | done pl' r' c' hp' hc' hd =>
    by_cases e : pl = pl'
    · subst e
      have := hd.same (fun p l e => h.not_file p l e)
      rw [h.place] at this
      cases this
      exact ⟨hd.place, c', hd.conf⟩
    · refine hconfs hfine hrn (by rw [hd.others pl hp e]; exact h.place) ?_
      intro p ep
      rw [hd.view, View.put_slot, if_neg (by rw [← ep]; exact fun e' => e e'.symm)]
      by_cases e2 : pl' = .cfg p
      · exfalso
        -- the config of a section that is an item
        subst e2
        have hnf := h.not_file p
        obtain ⟨c, hc⟩ := h.conf
        have hpp := h.place
        subst ep
        have hcp : s'.place (.cfg p) = some r' := hd.place
        have e3 : s'.find p = s.find p := by
          have h4 := hd.others (.item p) hp (by simp)
          simp only [HS.place] at hpp h4
          cases hfd : s.find p with
          | none => rw [hfd] at hpp; cases hpp
          | some v =>
            rw [hfd] at hpp h4
            cases v with
            | ref k =>
              simp only at h4
              cases hfd' : s'.find p with
              | none => rw [hfd'] at h4; cases h4
              | some v' =>
                rw [hfd'] at h4
                cases v' with
                | ref k' => simp only [Option.some.injEq] at h4; rw [h4]
                | mgr => cases h4
                | none => cases h4
                | other => cases h4
            | mgr => cases hpp
            | none => cases hpp
            | other => cases hpp
        have e4 : s.find p = some (.ref r) := by
          simp only [HS.place] at hpp
          cases hfd : s.find p with
          | none => rw [hfd] at hpp; cases hpp
          | some v =>
            rw [hfd] at hpp
            cases v with
            | ref k => simp only [Option.some.injEq] at hpp; rw [hpp]
            | mgr => cases hpp
            | none => cases hpp
            | other => cases hpp
        simp only [HS.place, e3, e4] at hcp
        have hk : s'.heap[r]? = some (.conf c) ∨ r = r' := by
          by_cases hrr : r = r'
          · exact .inr hrr
          · exact .inl (hd.confs r c hc hrr)
        rcases hk with hk | hk
        · simp [cfgOf, hk] at hcp
        · have := hd.conf
          rw [← hk] at this
          simp [cfgOf, this] at hcp
      · rw [if_neg e2]
  | replaced pl' r' c' hp' hc' hd hr' =>
    have e : pl ≠ pl' := by rintro rfl; exact hno hr'
    refine hconfs hfine hrn (by rw [hd.others pl hp e]; exact h.place) ?_
    intro p ep
    have hne2 : pl' ≠ .cfg p := by
      rintro rfl
      cases a with
      | touch r f => exact hr'
      | op o =>
        cases o with
        | reset q b =>
          cases q with
          | none => cases hr'
          | some q =>
            rcases hr' with ⟨-, e'⟩ | ⟨h1, h2⟩
            · cases e'
            · exact hno (.inr ⟨h1, by rw [ep]; exact h2⟩)
        | _ => exact hr'
    rw [hd.view, View.put_slot, if_neg (by rw [← ep]; exact fun e' => e e'.symm), if_neg hne2]
  | grown p n hne hn hg hu =>
    have hnu : ¬ pl.Under p := by
      intro hpu
      rcases hu pl hp hpu with h1 | h1
      · exact hno h1
      · rw [h.place] at h1; cases h1
    refine hconfs hfine hrn (by rw [hg.others pl hp hnu]; exact h.place) ?_
    rintro q rfl
    have hcl : (s.view.graft p n).clean.slot q = if CleanPath s.rootName q then (s.view.graft p n).slot q else .absent := rfl
    rw [hg.view, hcl, if_pos (show CleanPath s.rootName q from hp)]
    exact if_neg hnu
  | edit fs he =>
    subst he
    obtain ⟨h1, h2, h3⟩ := HS.edit_run hf.inv fs
    exact ⟨by rw [h3 pl hp]; exact h.place, h.conf⟩

theorem Covers.holds [BEq V] {l : List (HAct V)} : ∀ {s : HS V}, s.Covers l → s.Fine → ∀ {pl : Place} {r : Nat}, pl.Clean s.rootName →
    s.Holds pl r → s.Spares pl l → (s.acts l).Holds pl r := by
  induction l with
  | nil => intro s _ _ pl r _ h _; exact h
  | cons a l ih =>
    intro s h hf pl r hp hh hno
    have he := effect hf.inv hf.own h.1
    refine ih h.2 (he.fine hf) (by rw [he.rootName]; exact hp) (he.holds hf hp hh hno.1) hno.2

/-- An object that is known stays away from other places. -/
structure Away (s : HS V) (pl : Place) (r : Nat) : Prop where
  old : r < s.heap.length
  away : ∀ a, a.Clean s.rootName → a ≠ pl → s.place a ≠ some r

theorem Effect.away {s' : HS V} {a : HAct V} (he : s.Effect s' a) (hf : s.Fine) {pl : Place} {r : Nat} (h : s.Away pl r) :
    s'.Away pl r := by
  refine ⟨Nat.lt_of_lt_of_le h.old he.length, ?_⟩
  intro b hb hne
  have hb' : b.Clean s.rootName := by rw [← he.rootName]; exact hb
  have hbefore := h.away b hb' hne
  cases he with
  | still hst => rw [hst.place b hb']; exact hbefore
  | done pl' r' c' hp' hc' hd =>
    by_cases e : b = pl'
    · subst e
      rw [hd.place]
      by_cases hfile : ∃ p l, b = .item p ∧ s.hslot p = .file l
      · have := hd.fresh hfile
        have := h.old
        simp only [ne_eq, Option.some.injEq]
        omega
      · rw [← hd.same (fun p l e hs => hfile ⟨p, l, e, hs⟩)]
        exact hbefore
    · rw [hd.others b hb' e]; exact hbefore
  | replaced pl' r' c' hp' hc' hd hr' =>
    by_cases e : b = pl'
    · subst e
      rw [hd.place]
      have := hd.fresh
      have := h.old
      simp only [ne_eq, Option.some.injEq]
      omega
    · rw [hd.others b hb' e]; exact hbefore
  | grown p n hne hn hg hu =>
    by_cases e : b.Under p
    · intro hb2
      have := hg.fresh b hb' e r hb2
      have := h.old
      omega
    · rw [hg.others b hb' e]; exact hbefore
  | edit fs he =>
    subst he
    obtain ⟨h1, h2, h3⟩ := HS.edit_run hf.inv fs
    rw [h3 b hb']; exact hbefore

theorem Covers.away [BEq V] {l : List (HAct V)} : ∀ {s : HS V}, s.Covers l → s.Fine → ∀ {pl : Place} {r : Nat},
    s.Away pl r → (s.acts l).Away pl r := by
  induction l with
  | nil => intro s _ _ pl r h; exact h
  | cons a l ih =>
    intro s h hf pl r hh
    have he := effect hf.inv hf.own h.1
    exact ih h.2 (he.fine hf) (he.away hf hh)

/-- What a call of `get` gives is the object of the item or section, and it is there afterwards. -/
theorem get_done (hf : s.Fine) {p : List String} (hp : CleanPath s.rootName p) {r : Nat} {s' : HS V}
    (h : HM.get p s = (.ok (some r), s')) : ∃ pl c, s.Target (some p) pl ∧ s.view.ownAt pl = .ok (some c) ∧
      s.Done s' pl r (kGet (s.view.levelsAt pl ++ [some s.view.localConf]) c) := by
  rcases target_or hf.inv hp with ⟨pl, ht⟩ | hn
  · have hrun := HM.get_run hf.inv hf.own ht
    cases hown : s.view.ownAt pl with
    | error e => rw [hown] at hrun; simp only at hrun; rw [hrun] at h; cases h
    | ok oc =>
      rw [hown] at hrun
      cases oc with
      | none => simp only at hrun; rw [hrun] at h; cases h
      | some c =>
        obtain ⟨r1, s1, hg, hd⟩ := hrun
        rw [h] at hg
        cases hg
        exact ⟨pl, c, ht, hown, hd⟩
  · obtain ⟨e, he⟩ := HM.getRef_none hn
    exfalso
    have : HM.get p s = (.error e, s) := by unfold HM.get; rw [M.bind_error he]
    rw [this] at h
    cases h

theorem Done.holds {s' : HS V} {pl : Place} {r : Nat} {c : Conf V} (h : s.Done s' pl r c) : s'.Holds pl r :=
  ⟨h.place, c, h.conf⟩

theorem Done.away {s' : HS V} {pl : Place} {r : Nat} {c : Conf V} (h : s.Done s' pl r c) (hp : pl.Clean s.rootName) :
    s'.Away pl r := by
  refine ⟨(List.getElem?_eq_some_iff.1 h.conf).1, ?_⟩
  intro a ha hne e
  exact hne (h.inv.inj a pl r ha (by rw [h.rootName]; exact hp) e h.place)

theorem load_fine {fs : Files V} {rn : String} {s : HS V} (h : HS.load fs rn = .ok s) : s.Fine := by
  obtain ⟨hi, hr, t, ht, hv⟩ := HS.load_ok h
  have ho := CM.load_ownFiles ht
  refine ⟨hi, ?_⟩
  rw [hv]
  have hsl : ∀ p, PlainPath t.view.clean.rootName p → ∀ x, t.view.clean.slot p = x → x ≠ .absent → t.view.slot p = x := by
    intro p _ x hx hne
    simp only [View.clean] at hx
    split at hx
    · exact hx
    · exact absurd hx.symm hne
  exact ⟨fun p l hs hp => ho.file p l (hsl p hp _ hs (by simp)) hp, fun p c hs hp => ho.conf p c (hsl p hp _ hs (by simp)) hp,
    fun p c hs hp => ho.sect p c (hsl p hp _ hs (by simp)) hp, ho.localConf⟩

end HS
end Verif.Model
