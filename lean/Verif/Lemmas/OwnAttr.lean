import Verif.Lemmas.Reach

/-
Invariant of all reachable states of a config manager: a section's own config is stored as an instance
attribute only of that section and only under the section's own name.
-/

namespace Verif.Model
open Verif.Py
variable {V : Type}

/-- Own configs below `n`, which is called `nm`, are stored under the names of their sections. -/
inductive OwnOK : String → Node V → Prop
  | conf {nm c} : OwnOK nm (.conf c)
  | file {nm l} : OwnOK nm (.file l)
  | sect {nm cfg attrs map} : (∀ x, AList.get? attrs x = some .own → x = nm ∧ cfg.isSome = true) →
      (∀ x n, AList.get? attrs x = some n → OwnOK x n) →
      (∀ x n, AList.get? map x = some n → OwnOK x n) → OwnOK nm (.sect cfg attrs map)
  | own {nm} : OwnOK nm .own
  | other {nm} : OwnOK nm .other

theorem getLast_cons_cons (x nm y : String) (q : List String) :
    (x :: y :: q).getLast?.getD nm = (y :: q).getLast?.getD x := by
  rw [List.getLast?_cons_cons, List.getLast?_eq_some_getLast (by simp : y :: q ≠ [])]
  rfl

namespace OwnOK

theorem sect_inv {nm : String} {cfg : Option (Conf V)} {attrs map} (h : OwnOK nm (.sect cfg attrs map)) :
    (∀ x, AList.get? attrs x = some .own → x = nm ∧ cfg.isSome = true) ∧
    (∀ x n, AList.get? attrs x = some n → OwnOK x n) ∧
    (∀ x n, AList.get? map x = some n → OwnOK x n) := by
  cases h; exact ⟨by assumption, by assumption, by assumption⟩

theorem set_attrs {nm : String} {cfg : Option (Conf V)} {attrs map} (h : OwnOK nm (.sect cfg attrs map))
    {x n} (hn : OwnOK x n) (ho : n = .own → x = nm ∧ cfg.isSome = true) :
    OwnOK nm (.sect cfg (AList.set attrs x n) map) := by
  obtain ⟨h1, h2, h3⟩ := h.sect_inv
  refine .sect ?_ ?_ h3
  · intro y hy
    rw [AList.get?_set] at hy
    split at hy
    · rename_i hxy; subst hxy; exact ho (Option.some.inj hy)
    · exact h1 y hy
  · intro y m hy
    rw [AList.get?_set] at hy
    split at hy
    · rename_i hxy; subst hxy; cases hy; exact hn
    · exact h2 y m hy

theorem set_map {nm : String} {cfg : Option (Conf V)} {attrs map} (h : OwnOK nm (.sect cfg attrs map))
    {x n} (hn : OwnOK x n) : OwnOK nm (.sect cfg attrs (AList.set map x n)) := by
  obtain ⟨h1, h2, h3⟩ := h.sect_inv
  refine .sect h1 h2 ?_
  intro y m hy
  rw [AList.get?_set] at hy
  split at hy
  · rename_i hxy; subst hxy; cases hy; exact hn
  · exact h3 y m hy

theorem modifyAt {f : Node V → Node V} (hown : ∀ n, n ≠ .own → f n ≠ .own) (q : List String) :
    ∀ {nm : String} {n : Node V} (_ : OwnOK nm n) {res},
    (∀ m, OwnOK (q.getLast?.getD nm) m → OwnOK (q.getLast?.getD nm) (f m)) →
    OwnOK nm (n.modifyAt res nm q f) := by
  induction q with
  | nil =>
    intro nm n h res hf
    rw [Node.modifyAt]
    exact hf n h
  | cons x q ih =>
    intro nm n h res hf
    have hf' : ∀ m, OwnOK (q.getLast?.getD x) m → OwnOK (q.getLast?.getD x) (f m) := by
      cases q with
      | nil => exact hf
      | cons y q => exact (getLast_cons_cons x nm y q) ▸ hf
    cases n with
    | sect cfg attrs map =>
      obtain ⟨h1, h2, h3⟩ := h.sect_inv
      rw [Node.modifyAt]
      have hownCase : OwnOK nm (Node.modifyAt.ownCase cfg attrs map q f) := by
        unfold Node.modifyAt.ownCase
        split
        · split
          · exact .sect (fun y hy => ⟨(h1 y hy).1, rfl⟩) h2 h3
          · exact h
        · exact h
      split
      · exact h
      · split
        · split
          · exact hownCase
          · exact h
        · rename_i n' hne ha
          refine h.set_attrs (ih (h2 _ _ ha) hf') ?_
          intro ho
          exact absurd ho (Node.modifyAt_ne_own hown _ _ _ _ hne)
        · split
          · exact hownCase
          · split
            · rename_i n' hm
              exact h.set_map (ih (h3 _ _ hm) hf')
            · exact h
    | _ => exact h

end OwnOK

mutual
theorem fromFiles_own (fs : Files V) : ∀ (t : DirTree) (p : List String) (nm : String) (n : Node V),
    fromFiles fs p t = .ok n → OwnOK nm n
  | .mk hasSection files dirs => by
    intro p nm n h
    rw [fromFiles] at h
    simp only at h
    split at h
    · simp at h
    · split at h
      · simp at h
      · rename_i sections hs
        simp only [Except.ok.injEq] at h
        subst h
        refine .sect (by intro x h; simp [AList.get?] at h) (by intro x n h; simp [AList.get?] at h) ?_
        intro x n hg
        rcases AList.get?_foldl_set _ _ _ _ hg with hm | hg2
        · rcases List.mem_append.1 hm with hm | hm
          · simp only [List.mem_map] at hm
            obtain ⟨f, _, hf⟩ := hm
            cases hf
            exact .file
          · exact fromFilesDirs_own fs dirs p sections hs x n hm
        · simp [AList.get?] at hg2
theorem fromFilesDirs_own (fs : Files V) : ∀ (dirs : List (String × DirTree)) (p : List String)
    (ns : List (String × Node V)), fromFilesDirs fs p dirs = .ok ns →
    ∀ x n, (x, n) ∈ ns → OwnOK x n
  | [] => by
    intro p ns h x n hm
    simp [fromFilesDirs] at h; subst h; simp at hm
  | (name, d) :: ds => by
    intro p ns h x n hm
    rw [fromFilesDirs] at h
    cases h1 : fromFiles fs (p ++ [name]) d with
    | error e => rw [h1] at h; simp at h
    | ok n1 =>
      rw [h1] at h
      cases h2 : fromFilesDirs fs p ds with
      | error e => rw [h2] at h; simp at h
      | ok ns' =>
        rw [h2] at h
        simp only [Except.ok.injEq] at h
        subst h
        rcases List.mem_cons.1 hm with hm | hm
        · cases hm; exact fromFiles_own fs d _ _ _ h1
        · exact fromFilesDirs_own fs ds p ns' h2 x n hm
end

/-- The invariant for a manager. -/
def CM.OwnOK (s : CM V) : Prop := Model.OwnOK s.rootName s.root

theorem CM.load_own {fs : Files V} {rootName : String} {s : CM V} (h : CM.load fs rootName = .ok s) : s.OwnOK := by
  unfold CM.load at h
  cases hf : fromFiles fs [] fs.tree with
  | error e => rw [hf] at h; simp at h
  | ok root =>
    rw [hf] at h
    simp at h
    subst h
    exact fromFiles_own fs _ _ _ _ hf

namespace CMM

theorem mapConf_own {s : CM V} (h : s.OwnOK) (p : List String) (g : Conf V → Conf V) :
    (s.modifyAt p (Node.mapConf g)).OwnOK := by
  refine OwnOK.modifyAt (Node.mapConf_ne_own g) p h ?_
  intro m hm
  unfold Node.mapConf
  split
  · exact .conf
  · obtain ⟨h1, h2, h3⟩ := hm.sect_inv
    exact .sect (fun x hx => ⟨(h1 x hx).1, rfl⟩) h2 h3
  · exact hm

theorem setAttr_own {s : CM V} (h : s.OwnOK) (p : List String) (x : String) {v : Node V → Node V}
    (hv : ∀ n, v n ≠ .own ∨ ∃ c attrs map, n = .sect (some c) attrs map ∧
      (AList.get? attrs x = some .own ∨ x = p.getLast?.getD s.rootName))
    (hv' : ∀ n, OwnOK x (v n)) :
    (s.modifyAt p (fun parent => parent.setAttr x (v parent))).OwnOK := by
  refine OwnOK.modifyAt ?_ p h ?_
  · intro n hn
    cases n <;> first | exact absurd rfl hn | simp [Node.setAttr]
  · intro m hm
    cases m with
    | sect cfg attrs map =>
      refine hm.set_attrs (hv' _) ?_
      intro ho
      rcases hv (.sect cfg attrs map) with h | ⟨c, a, m, he, h⟩
      · exact absurd ho h
      · cases he
        rcases h with h | h
        · exact hm.sect_inv.1 x h
        · exact ⟨h, rfl⟩
    | _ => exact hm

theorem attrValue_own (parent : Node V) (nm x : String) (c : Conf V) :
    (attrValue parent nm x c ≠ .own ∨ ∃ c attrs map, parent = .sect (some c) attrs map ∧
      (AList.get? attrs x = some .own ∨ x = nm)) ∧ OwnOK x (attrValue parent nm x c) := by
  unfold attrValue
  split
  · split
    · rename_i h; exact ⟨.inr ⟨_, _, _, rfl, .inl h⟩, .own⟩
    · exact ⟨.inl (by simp), .conf⟩
    · split
      · rename_i h; exact ⟨.inr ⟨_, _, _, rfl, .inr h⟩, .own⟩
      · exact ⟨.inl (by simp), .conf⟩
  · exact ⟨.inl (by simp), .conf⟩

/-- `m` keeps the invariant. -/
def KeepsOwn {α : Type} (m : CMM V α) : Prop := M.Keeps (fun s s' : CM V => s.OwnOK → s'.OwnOK) m

namespace KeepsOwn
variable {α β : Type}
theorem pure (a : α) : KeepsOwn (V := V) (Pure.pure a) := M.Keeps.pure (fun _ h => h) a
theorem raise (e : PyErr) : KeepsOwn (V := V) (α := α) (M.raise e) := M.Keeps.raise (fun _ h => h) e
theorem get : KeepsOwn (V := V) M.get := M.Keeps.get (fun _ h => h)
theorem liftE (x : Except PyErr α) : KeepsOwn (V := V) (M.liftE x) := M.Keeps.liftE (fun _ h => h) x
theorem bind {m : CMM V α} {f : α → CMM V β} (hm : KeepsOwn m) (hf : ∀ a, KeepsOwn (f a)) :
    KeepsOwn (m >>= f) := M.Keeps.bind (fun _ _ _ h1 h2 h => h2 (h1 h)) hm hf
theorem tryCatch {m : CMM V α} {f : PyErr → CMM V α} (hm : KeepsOwn m) (hf : ∀ a, KeepsOwn (f a)) :
    KeepsOwn (M.tryCatch m f) := M.Keeps.tryCatch (fun _ _ _ h1 h2 h => h2 (h1 h)) hm hf
end KeepsOwn

theorem storeLoaded_own (p : List String) (c : Conf V) : KeepsOwn (storeLoaded p c) := by
  intro s h
  exact setAttr_own (s := s) h p.dropLast (p.getLast?.getD "")
    (v := fun parent => attrValue parent (p.dropLast.getLast?.getD s.rootName) (p.getLast?.getD "") c)
    (fun n => (attrValue_own n _ _ c).1) (fun n => (attrValue_own n _ _ c).2)

theorem configOf_own (n : Node V) : KeepsOwn (configOf n) := by
  intro s h
  unfold configOf
  split
  · exact h
  · exact h
  · split <;> exact h
  · exact h

theorem getFunc_own (p : List String) : KeepsOwn (V := V) (getFuncOrSectionConfigs p) := by
  refine KeepsOwn.bind KeepsOwn.get fun s => KeepsOwn.bind (KeepsOwn.liftE _) fun n => KeepsOwn.bind (configOf_own n) fun c => ?_
  split
  · exact KeepsOwn.pure _
  · exact KeepsOwn.bind (storeLoaded_own _ _) fun _ => KeepsOwn.pure _
  · exact KeepsOwn.pure _

theorem getProjectOrLocal_own (p : Option (List String)) : KeepsOwn (V := V) (getProjectOrLocal p) := by
  cases p with
  | none => exact KeepsOwn.bind KeepsOwn.get fun _ => KeepsOwn.pure _
  | some p => exact getFunc_own p

theorem writeBack_own (p : Option (List String)) (g : Conf V → Conf V) : KeepsOwn (writeBack p g) := by
  intro s h
  cases p with
  | none => exact h
  | some p => exact mapConf_own h p g

theorem update_own [BEq V] (d : Option (Dict String V)) (p : Option (List String)) (persist : Bool) (kw : Dict String V) :
    KeepsOwn (update d p persist kw) := by
  refine KeepsOwn.bind (getProjectOrLocal_own p) fun r => ?_
  cases r with
  | none => exact KeepsOwn.raise _
  | some c =>
    refine KeepsOwn.bind (KeepsOwn.liftE _) fun would => ?_
    split
    · split
      · exact KeepsOwn.raise _
      · exact KeepsOwn.bind (writeBack_own _ _) fun _ => KeepsOwn.pure _
    · exact KeepsOwn.pure _

theorem pop_own (key : String) (p : Option (List String)) : KeepsOwn (V := V) (pop key p) := by
  refine KeepsOwn.bind (getProjectOrLocal_own p) fun r => ?_
  cases r with
  | none => exact KeepsOwn.raise _
  | some c =>
    dsimp only
    cases c.values.get? key with
    | none => exact KeepsOwn.raise _
    | some v => exact KeepsOwn.bind (writeBack_own _ _) fun _ => KeepsOwn.pure _

theorem newConfig_own (c : Conf V) : KeepsOwn (newConfigFromFile c) := by
  intro s h
  rw [newConfig_state]; exact h

theorem refresh_own [BEq V] (p : List String) : KeepsOwn (V := V) (refresh p) := by
  refine KeepsOwn.bind (getFunc_own p) fun r => ?_
  cases r with
  | none => exact KeepsOwn.raise _
  | some c =>
    refine KeepsOwn.bind (newConfig_own c) fun announced => ?_
    dsimp only
    split
    · exact KeepsOwn.pure _
    · refine KeepsOwn.bind (newConfig_own c) fun new => ?_
      cases c.refresh new.values with
      | error e => exact KeepsOwn.raise _
      | ok r => exact KeepsOwn.bind (writeBack_own _ _) fun _ => KeepsOwn.pure _

theorem sectionConfigsFrom_own (p : List String) : ∀ (pre : List String), KeepsOwn (V := V) (sectionConfigsFrom pre p) := by
  induction p with
  | nil => intro pre; exact KeepsOwn.pure _
  | cons x p ih =>
    intro pre
    cases p with
    | nil =>
      rw [sectionConfigsFrom]
      refine KeepsOwn.bind KeepsOwn.get fun s => KeepsOwn.bind (KeepsOwn.liftE _) fun n => ?_
      cases n with
      | sect _ _ _ => exact KeepsOwn.bind (getFunc_own _) fun _ => KeepsOwn.pure _
      | conf _ => exact KeepsOwn.pure _
      | file _ => exact KeepsOwn.pure _
      | own => exact KeepsOwn.raise _
      | other => exact KeepsOwn.raise _
    | cons y p =>
      rw [sectionConfigsFrom]
      exact KeepsOwn.bind (getFunc_own _) fun _ => KeepsOwn.bind (ih _) fun _ => KeepsOwn.pure _

theorem get_own (p : List String) : KeepsOwn (V := V) (get p) := by
  refine KeepsOwn.bind (getFunc_own p) fun config => KeepsOwn.bind KeepsOwn.get fun s =>
    KeepsOwn.bind (sectionConfigsFrom_own p _) fun others => ?_
  cases config with
  | none => exact KeepsOwn.pure _
  | some c =>
    dsimp only
    split
    · exact KeepsOwn.pure _
    · exact KeepsOwn.bind KeepsOwn.get fun s' => KeepsOwn.bind (writeBack_own _ _) fun _ => KeepsOwn.pure _

theorem append_own {nm : String} {n v : Node V} {x : String} (h : OwnOK nm n) (hv : OwnOK x v) :
    OwnOK nm (n.append x v) := by
  cases n with
  | sect cfg attrs map => exact h.set_map hv
  | _ => exact h

theorem appendWithCreate_ne_own {v : Node V} {q : List String} (hq : q ≠ []) {res nm} {n n' : Node V}
    (h : appendWithCreate res nm n v q = .ok n') : n' ≠ .own := by
  cases n with
  | sect cfg attrs map =>
    cases q with
    | nil => exact absurd rfl hq
    | cons x q =>
      cases q with
      | nil => rw [awc_single] at h; cases h; simp [Node.append]
      | cons y q =>
        rw [awc_cons] at h
        split at h
        · split at h
          · cases h
          · cases h
            rw [Node.modifyAt]
            split
            · simp
            · split
              · split
                · unfold Node.modifyAt.ownCase; split <;> (try split) <;> simp
                · simp
              · simp
              · split
                · unfold Node.modifyAt.ownCase; split <;> (try split) <;> simp
                · split <;> simp
        · dsimp only at h
          split at h
          · cases h
          · cases h; simp [Node.append]
        · cases h
  | conf c => cases q with
    | nil => exact absurd rfl hq
    | cons x q => exact (appendWithCreate_conf h).elim
  | other => cases q with
    | nil => exact absurd rfl hq
    | cons x q => exact (awc_other _ _ _ h).elim
  | file l => cases q with
    | nil => exact absurd rfl hq
    | cons x q => cases q with
      | nil => rw [awc_single] at h; cases h
      | cons y q => rw [awc_cons] at h; simp [Node.child] at h
  | own => cases q with
    | nil => exact absurd rfl hq
    | cons x q => cases q with
      | nil => rw [awc_single] at h; cases h
      | cons y q => rw [awc_cons] at h; simp [Node.child] at h

theorem child_own {nm x : String} {res} {n n' : Node V} (h : OwnOK nm n) (hc : n.child res nm x = .ok n') : OwnOK x n' := by
  unfold Node.child at hc
  cases n with
  | sect cfg attrs map =>
    obtain ⟨h1, h2, h3⟩ := h.sect_inv
    simp only at hc
    split at hc
    · cases hc; exact .other
    · split at hc
      · split at hc
        · split at hc
          · cases hc; exact .conf
          · cases hc
        · cases hc
      · rename_i ha; cases hc; exact h2 _ _ ha
      · split at hc
        · split at hc
          · cases hc; exact .conf
          · split at hc
            · rename_i hm; cases hc; exact h3 _ _ hm
            · cases hc
        · rename_i hm; cases hc; exact h3 _ _ hm
        · cases hc
  | conf c =>
    simp only at hc
    split at hc
    · cases hc; exact .other
    · cases hc
  | _ => cases hc

theorem appendWithCreate_own (v : Node V) (q : List String) : ∀ (nm : String) (res) (n n' : Node V),
    OwnOK nm n → OwnOK (q.getLast?.getD nm) v → appendWithCreate res nm n v q = .ok n' → OwnOK nm n' := by
  induction q with
  | nil => intro nm res n n' h _ ha; cases ha; exact h
  | cons x q ih =>
    intro nm res n n' h hv ha
    cases q with
    | nil =>
      rw [awc_single] at ha
      split at ha
      · cases ha; exact append_own h hv
      · cases ha
    | cons y q =>
      rw [awc_cons] at ha
      have hv' : OwnOK ((y :: q).getLast?.getD x) v := by
        rw [getLast_cons_cons x nm y q] at hv; exact hv
      cases hc : n.child res nm x with
      | ok m =>
        rw [hc] at ha
        simp only at ha
        split at ha
        · cases ha
        · rename_i m' hm'
          cases ha
          refine OwnOK.modifyAt (fun _ _ => appendWithCreate_ne_own (by simp) hm') [x] h ?_
          intro m2 _
          exact ih x _ _ _ (child_own h hc) hv' hm'
      | error e =>
        rw [hc] at ha
        cases e with
        | keyError =>
          simp only at ha
          split at ha
          · split at ha
            · cases ha
            · rename_i m' hm'
              cases ha
              apply append_own h
              exact ih _ _ _ _ (.sect (by simp [AList.get?]) (by simp [AList.get?]) (by simp [AList.get?])) hv' hm'
          · cases ha
        | _ => cases ha

theorem getDefault_own {s : CM V} {p : List String} {create : Bool} {n : Node V}
    (h : getDefault s p create = .ok n) (nm : String) : OwnOK nm n ∧ n ≠ .own := by
  have hload : ∀ n, (s.fs.load (.item p)).map Node.conf = .ok n → OwnOK nm n ∧ n ≠ .own := by
    intro n h
    cases hl : s.fs.load (.item p) with
    | error e => rw [hl] at h; cases h
    | ok c => rw [hl] at h; cases h; exact ⟨.conf, by simp⟩
  unfold getDefault at h
  split at h
  · cases h
  · split at h
    · refine ⟨fromFiles_own _ _ _ _ _ h, ?_⟩
      rename_i t _
      obtain ⟨b, files, dirs⟩ := t
      rw [fromFiles] at h
      simp only at h
      split at h
      · cases h
      · split at h
        · cases h
        · cases h; simp
    · cases h; exact ⟨.sect (by simp [AList.get?]) (by simp [AList.get?]) (by simp [AList.get?]), by simp⟩
  · exact hload n h
  · exact hload n h
  · cases h

theorem setFunc_own {p : List String} {v : Node V} (hv : ∀ nm, OwnOK nm v) (ho : v ≠ .own) (create : Bool) :
    KeepsOwn (setFuncOrSectionConfig p v create) := by
  intro s h
  unfold setFuncOrSectionConfig
  split
  · split
    · rename_i root hr
      exact appendWithCreate_own v p _ _ _ _ h (hv _) hr
    · exact h
  · split
    · exact h
    · exact setAttr_own (s := s) h p.dropLast (p.getLast?.getD "") (v := fun _ => v) (fun _ => .inl ho) (fun _ => hv _)

theorem set_own [BEq V] {p : List String} {v : Node V} (hv : ∀ nm, OwnOK nm v) (ho : v ≠ .own) (create : Bool) :
    KeepsOwn (set p v create) := by
  refine KeepsOwn.bind (KeepsOwn.tryCatch (getFunc_own p) ?_) ?_
  · intro e
    split
    · exact KeepsOwn.pure _
    · exact KeepsOwn.raise _
  · intro current
    cases current with
    | none => exact KeepsOwn.bind (setFunc_own hv ho create) (fun _ => KeepsOwn.pure _)
    | some c =>
      cases v with
      | conf v =>
        refine KeepsOwn.bind (KeepsOwn.liftE _) fun would => ?_
        split
        · exact KeepsOwn.bind (setFunc_own hv ho create) (fun _ => KeepsOwn.pure _)
        · exact KeepsOwn.pure _
      | _ => exact KeepsOwn.raise _

theorem reset_own [BEq V] (p : Option (List String)) (create : Bool) : KeepsOwn (V := V) (reset p create) := by
  intro s h
  cases p with
  | none => exact h
  | some p =>
    show ((M.get >>= fun s => M.liftE (getDefault s p create) >>= fun value => set p value create) s).2.OwnOK
    rw [M.bind_ok (M.get_run s), M.bind_run, M.liftE_run]
    cases hd : getDefault s p create with
    | error e => exact h
    | ok v => exact set_own (fun nm => (getDefault_own hd nm).1) (getDefault_own hd "").2 create s h

end CMM

theorem CM.step_own [BEq V] {s : CM V} (h : s.OwnOK) (op : CMOp V) : (s.step op).OwnOK := by
  cases op with
  | update d p persist kw => exact CMM.update_own d p persist kw s h
  | refresh p => exact CMM.refresh_own p s h
  | get p => exact CMM.get_own p s h
  | reset p create => exact CMM.reset_own p create s h
  | pop key p => exact CMM.pop_own key p s h
  | edit fs => exact h

theorem CM.Reachable.own [BEq V] {s : CM V} (h : s.Reachable) : s.OwnOK := by
  obtain ⟨fs, rootName, s0, ops, h0, hv, hs⟩ := h
  subst hs
  have := CM.load_own h0
  clear h0 hv
  induction ops generalizing s0 with
  | nil => exact this
  | cons op ops ih => exact ih _ (CM.step_own this op)

end Verif.Model
