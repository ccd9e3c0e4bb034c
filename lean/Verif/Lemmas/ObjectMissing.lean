import Verif.Lemmas.ObjectRefine

/-
Paths that lead to nothing, in the config manager with objects and in the config manager as a tree.
-/

namespace Verif.Model
open Verif.Py
variable {V : Type}

/-! ### Sections hold configs, files and sections only -/

/-- Everything below `n` is a config, a file or a section; among the instance attributes of a section may be its own config. -/
inductive SolidNode : Node V → Prop where
  | conf (c : Conf V) : SolidNode (.conf c)
  | file (l : FileLoc) : SolidNode (.file l)
  | sect {cfg : Option (Conf V)} {attrs map : List (String × Node V)} :
      (∀ x n, AList.get? attrs x = some n → n ≠ .own → SolidNode n) →
      (∀ x n, AList.get? map x = some n → SolidNode n) → SolidNode (.sect cfg attrs map)

namespace SolidNode

theorem sect_inv {cfg : Option (Conf V)} {attrs map} (h : SolidNode (.sect cfg attrs map)) :
    (∀ x n, AList.get? attrs x = some n → n ≠ .own → SolidNode n) ∧ (∀ x n, AList.get? map x = some n → SolidNode n) := by
  cases h; exact ⟨by assumption, by assumption⟩

theorem set_attrs {cfg : Option (Conf V)} {attrs map} (h : SolidNode (.sect cfg attrs map)) {x : String} {n : Node V}
    (hn : n ≠ .own → SolidNode n) : SolidNode (.sect cfg (AList.set attrs x n) map) := by
  obtain ⟨h1, h2⟩ := h.sect_inv
  refine .sect ?_ h2
  intro y m hy
  rw [AList.get?_set] at hy
  split at hy
  · cases hy; exact hn
  · exact h1 y m hy

theorem set_map {cfg : Option (Conf V)} {attrs map} (h : SolidNode (.sect cfg attrs map)) {x : String} {n : Node V}
    (hn : SolidNode n) : SolidNode (.sect cfg attrs (AList.set map x n)) := by
  obtain ⟨h1, h2⟩ := h.sect_inv
  refine .sect h1 ?_
  intro y m hy
  rw [AList.get?_set] at hy
  split at hy
  · cases hy; exact hn
  · exact h2 y m hy

theorem with_cfg {cfg : Option (Conf V)} {attrs map} (h : SolidNode (.sect cfg attrs map)) (cfg' : Option (Conf V)) :
    SolidNode (.sect cfg' attrs map) := .sect h.sect_inv.1 h.sect_inv.2

theorem modifyAt {f : Node V → Node V} (hf : ∀ m, SolidNode m → SolidNode (f m)) (q : List String) :
    ∀ {n : Node V} (_ : SolidNode n) (res nm), SolidNode (n.modifyAt res nm q f) := by
  induction q with
  | nil => intro n h res nm; rw [Node.modifyAt]; exact hf n h
  | cons x q ih =>
    intro n h res nm
    cases n with
    | sect cfg attrs map =>
      obtain ⟨h1, h2⟩ := h.sect_inv
      rw [Node.modifyAt]
      have hownCase : SolidNode (Node.modifyAt.ownCase cfg attrs map q f) := by
        unfold Node.modifyAt.ownCase
        split
        · split
          · exact h.with_cfg _
          · exact h
        · exact h
      split
      · exact h
      · split
        · split
          · exact hownCase
          · exact h
        · rename_i n' hne ha
          exact h.set_attrs (fun _ => ih (h1 _ _ ha hne) _ _)
        · split
          · exact hownCase
          · split
            · rename_i n' hm
              exact h.set_map (ih (h2 _ _ hm) _ _)
            · exact h
    | conf c => exact h
    | file l => exact h
    | own => exact h
    | other => exact h

theorem of_fresh {n : Node V} (h : FreshNode n) : SolidNode n := by
  induction h with
  | file l => exact .file l
  | sect cfg map _ ih =>
    refine .sect (by simp [AList.get?]) ?_
    intro x n hg
    exact ih (x, n) (AList.mem_of_get? hg)

end SolidNode

namespace CMM

theorem mapConf_solid {s : CM V} (h : SolidNode s.root) (p : List String) (g : Conf V → Conf V) :
    SolidNode (s.modifyAt p (Node.mapConf g)).root := by
  refine SolidNode.modifyAt ?_ p h _ _
  intro m hm
  unfold Node.mapConf
  split
  · exact .conf _
  · exact hm.with_cfg _
  · exact hm

theorem setAttr_solid {s : CM V} (h : SolidNode s.root) (p : List String) (x : String) {v : Node V → Node V}
    (hv : ∀ n, v n ≠ .own → SolidNode (v n)) :
    SolidNode (s.modifyAt p (fun parent => parent.setAttr x (v parent))).root := by
  refine SolidNode.modifyAt ?_ p h _ _
  intro m hm
  cases m with
  | sect cfg attrs map => exact hm.set_attrs (hv _)
  | conf c => exact hm
  | file l => exact hm
  | own => exact hm
  | other => exact hm

theorem attrValue_solid (parent : Node V) (nm x : String) (c : Conf V) (h : attrValue parent nm x c ≠ .own) :
    SolidNode (attrValue parent nm x c) := by
  have : attrValue parent nm x c = .own ∨ attrValue parent nm x c = .conf c := by
    unfold attrValue
    split
    · split
      · exact .inl rfl
      · exact .inr rfl
      · split
        · exact .inl rfl
        · exact .inr rfl
    · exact .inr rfl
  rcases this with e | e
  · exact absurd e h
  · rw [e]; exact .conf c

/-- `m` keeps the invariant. -/
def KeepsSolid {α : Type} (m : CMM V α) : Prop := M.Keeps (fun s s' : CM V => SolidNode s.root → SolidNode s'.root) m

namespace KeepsSolid
variable {α β : Type}
theorem pure (a : α) : KeepsSolid (V := V) (Pure.pure a) := M.Keeps.pure (fun _ h => h) a
theorem raise (e : PyErr) : KeepsSolid (V := V) (α := α) (M.raise e) := M.Keeps.raise (fun _ h => h) e
theorem get : KeepsSolid (V := V) M.get := M.Keeps.get (fun _ h => h)
theorem liftE (x : Except PyErr α) : KeepsSolid (V := V) (M.liftE x) := M.Keeps.liftE (fun _ h => h) x
theorem bind {m : CMM V α} {f : α → CMM V β} (hm : KeepsSolid m) (hf : ∀ a, KeepsSolid (f a)) :
    KeepsSolid (m >>= f) := M.Keeps.bind (fun _ _ _ h1 h2 h => h2 (h1 h)) hm hf
theorem tryCatch {m : CMM V α} {f : PyErr → CMM V α} (hm : KeepsSolid m) (hf : ∀ a, KeepsSolid (f a)) :
    KeepsSolid (M.tryCatch m f) := M.Keeps.tryCatch (fun _ _ _ h1 h2 h => h2 (h1 h)) hm hf
end KeepsSolid

theorem storeLoaded_solid (p : List String) (c : Conf V) : KeepsSolid (storeLoaded p c) := by
  intro s h
  exact setAttr_solid (s := s) h p.dropLast (p.getLast?.getD "")
    (v := fun parent => attrValue parent (p.dropLast.getLast?.getD s.rootName) (p.getLast?.getD "") c)
    (fun n => attrValue_solid n _ _ c)

theorem configOf_solid (n : Node V) : KeepsSolid (configOf n) := by
  intro s h
  unfold configOf
  split
  · exact h
  · exact h
  · split <;> exact h
  · exact h

theorem getFunc_solid (p : List String) : KeepsSolid (V := V) (getFuncOrSectionConfigs p) := by
  refine KeepsSolid.bind KeepsSolid.get fun s => KeepsSolid.bind (KeepsSolid.liftE _) fun n =>
    KeepsSolid.bind (configOf_solid n) fun c => ?_
  split
  · exact KeepsSolid.pure _
  · exact KeepsSolid.bind (storeLoaded_solid _ _) fun _ => KeepsSolid.pure _
  · exact KeepsSolid.pure _

theorem getProjectOrLocal_solid (p : Option (List String)) : KeepsSolid (V := V) (getProjectOrLocal p) := by
  cases p with
  | none => exact KeepsSolid.bind KeepsSolid.get fun _ => KeepsSolid.pure _
  | some p => exact getFunc_solid p

theorem writeBack_solid (p : Option (List String)) (g : Conf V → Conf V) : KeepsSolid (writeBack p g) := by
  intro s h
  cases p with
  | none => exact h
  | some p => exact mapConf_solid h p g

theorem update_solid [BEq V] (d : Option (Dict String V)) (p : Option (List String)) (persist : Bool) (kw : Dict String V) :
    KeepsSolid (update d p persist kw) := by
  refine KeepsSolid.bind (getProjectOrLocal_solid p) fun r => ?_
  cases r with
  | none => exact KeepsSolid.raise _
  | some c =>
    refine KeepsSolid.bind (KeepsSolid.liftE _) fun would => ?_
    split
    · split
      · exact KeepsSolid.raise _
      · exact KeepsSolid.bind (writeBack_solid _ _) fun _ => KeepsSolid.pure _
    · exact KeepsSolid.pure _

theorem pop_solid (key : String) (p : Option (List String)) : KeepsSolid (V := V) (pop key p) := by
  refine KeepsSolid.bind (getProjectOrLocal_solid p) fun r => ?_
  cases r with
  | none => exact KeepsSolid.raise _
  | some c =>
    dsimp only
    cases c.values.get? key with
    | none => exact KeepsSolid.raise _
    | some v => exact KeepsSolid.bind (writeBack_solid _ _) fun _ => KeepsSolid.pure _

theorem newConfig_solid (c : Conf V) : KeepsSolid (newConfigFromFile c) := by
  intro s h
  rw [newConfig_state]; exact h

theorem refresh_solid [BEq V] (p : List String) : KeepsSolid (V := V) (refresh p) := by
  refine KeepsSolid.bind (getFunc_solid p) fun r => ?_
  cases r with
  | none => exact KeepsSolid.raise _
  | some c =>
    refine KeepsSolid.bind (newConfig_solid c) fun announced => ?_
    dsimp only
    split
    · exact KeepsSolid.pure _
    · refine KeepsSolid.bind (newConfig_solid c) fun new => ?_
      cases c.refresh new.values with
      | error e => exact KeepsSolid.raise _
      | ok r => exact KeepsSolid.bind (writeBack_solid _ _) fun _ => KeepsSolid.pure _

theorem sectionConfigsFrom_solid (p : List String) : ∀ (pre : List String), KeepsSolid (V := V) (sectionConfigsFrom pre p) := by
  induction p with
  | nil => intro pre; exact KeepsSolid.pure _
  | cons x p ih =>
    intro pre
    cases p with
    | nil =>
      rw [sectionConfigsFrom]
      refine KeepsSolid.bind KeepsSolid.get fun s => KeepsSolid.bind (KeepsSolid.liftE _) fun n => ?_
      cases n with
      | sect _ _ _ => exact KeepsSolid.bind (getFunc_solid _) fun _ => KeepsSolid.pure _
      | conf _ => exact KeepsSolid.pure _
      | file _ => exact KeepsSolid.pure _
      | own => exact KeepsSolid.raise _
      | other => exact KeepsSolid.raise _
    | cons y p =>
      rw [sectionConfigsFrom]
      exact KeepsSolid.bind (getFunc_solid _) fun _ => KeepsSolid.bind (ih _) fun _ => KeepsSolid.pure _

theorem get_solid (p : List String) : KeepsSolid (V := V) (get p) := by
  refine KeepsSolid.bind (getFunc_solid p) fun config => KeepsSolid.bind KeepsSolid.get fun s =>
    KeepsSolid.bind (sectionConfigsFrom_solid p _) fun others => ?_
  cases config with
  | none => exact KeepsSolid.pure _
  | some c =>
    dsimp only
    split
    · exact KeepsSolid.pure _
    · exact KeepsSolid.bind KeepsSolid.get fun s' => KeepsSolid.bind (writeBack_solid _ _) fun _ => KeepsSolid.pure _

theorem getDefault_solid {s : CM V} {p : List String} {create : Bool} {n : Node V}
    (h : getDefault s p create = .ok n) : SolidNode n := by
  have hload : ∀ n, (s.fs.load (.item p)).map Node.conf = .ok n → SolidNode n := by
    intro n h
    cases hl : s.fs.load (.item p) with
    | error e => rw [hl] at h; cases h
    | ok c => rw [hl] at h; cases h; exact .conf c
  unfold getDefault at h
  split at h
  · cases h
  · split at h
    · exact .of_fresh (fromFiles_freshNode _ _ _ _ h)
    · cases h; exact .sect (by simp [AList.get?]) (by simp [AList.get?])
  · exact hload n h
  · exact hload n h
  · cases h

theorem child_solid_or {n n' : Node V} (h : SolidNode n) {res : List String} {nm x : String} (hc : n.child res nm x = .ok n') :
    SolidNode n' ∨ n' = .other := by
  unfold Node.child at hc
  cases n with
  | sect cfg attrs map =>
    obtain ⟨h1, h2⟩ := h.sect_inv
    simp only at hc
    split at hc
    · cases hc; exact .inr rfl
    · left
      split at hc
      · split at hc
        · split at hc
          · cases hc; exact .conf _
          · cases hc
        · cases hc
      · rename_i hne ha; cases hc; exact h1 _ _ ha hne
      · split at hc
        · split at hc
          · cases hc; exact .conf _
          · split at hc
            · rename_i hm; cases hc; exact h2 _ _ hm
            · cases hc
        · rename_i hm; cases hc; exact h2 _ _ hm
        · cases hc
  | conf c =>
    simp only at hc
    split at hc
    · cases hc; exact .inr rfl
    · cases hc
  | file l => cases hc
  | own => cases hc
  | other => cases hc

theorem append_solid {n v : Node V} (h : SolidNode n) (hv : SolidNode v) (x : String) : SolidNode (n.append x v) := by
  cases n with
  | sect cfg attrs map => exact h.set_map hv
  | _ => exact h

theorem awc_solid {v : Node V} (hv : SolidNode v) (p : List String) : ∀ {res nm} {n n' : Node V}, SolidNode n →
    appendWithCreate res nm n v p = .ok n' → SolidNode n' := by
  induction p with
  | nil => intro res nm n n' h he; cases he; exact h
  | cons x p ih =>
    intro res nm n n' h he
    cases p with
    | nil =>
      rw [awc_single] at he
      cases n with
      | sect cfg attrs map => cases he; exact append_solid h hv x
      | conf c => cases he
      | file l => cases he
      | own => cases he
      | other => cases he
    | cons y p =>
      rw [awc_cons] at he
      split at he
      · rename_i m hm
        split at he
        · cases he
        · rename_i m' hm'
          cases he
          rcases child_solid_or h hm with h1 | rfl
          · exact SolidNode.modifyAt (fun _ _ => ih h1 hm') [x] h _ _
          · exact absurd hm' (awc_other _ _ _)
      · split at he
        · split at he
          · cases he
          · rename_i m' hm'
            cases he
            exact append_solid h (ih (.sect (by simp [AList.get?]) (by simp [AList.get?])) hm') x
        · cases he
      · cases he

theorem setFunc_solid {p : List String} {v : Node V} (hv : SolidNode v) (b : Bool) :
    KeepsSolid (setFuncOrSectionConfig p v b) := by
  intro s h
  unfold setFuncOrSectionConfig
  split
  · split
    · rename_i root hr
      exact awc_solid hv p h hr
    · exact h
  · split
    · exact h
    · exact setAttr_solid (s := s) h p.dropLast (p.getLast?.getD "") (v := fun _ => v) (fun _ _ => hv)

theorem set_solid [BEq V] {p : List String} {v : Node V} (hv : SolidNode v) (b : Bool) : KeepsSolid (set p v b) := by
  refine KeepsSolid.bind (KeepsSolid.tryCatch (getFunc_solid p) ?_) ?_
  · intro e
    split
    · exact KeepsSolid.pure _
    · exact KeepsSolid.raise _
  · intro current
    cases current with
    | none => exact KeepsSolid.bind (setFunc_solid hv b) (fun _ => KeepsSolid.pure _)
    | some c =>
      cases v with
      | conf v =>
        refine KeepsSolid.bind (KeepsSolid.liftE _) fun would => ?_
        split
        · exact KeepsSolid.bind (setFunc_solid hv b) (fun _ => KeepsSolid.pure _)
        · exact KeepsSolid.pure _
      | _ => exact KeepsSolid.raise _

theorem reset_solid [BEq V] (p : List String) (b : Bool) : KeepsSolid (V := V) (reset (some p) b) := by
  intro s h
  show SolidNode ((M.get >>= fun s => M.liftE (getDefault s p b) >>= fun value => set p value b) s).2.root
  rw [M.bind_ok (M.get_run s), M.bind_run, M.liftE_run]
  cases hd : getDefault s p b with
  | error e => exact h
  | ok v => exact set_solid (getDefault_solid hd) b s h

end CMM

/-- Sections go on to hold configs, files and sections only. -/
theorem CM.step_solid [BEq V] {s : CM V} (h : SolidNode s.root) (op : CMOp V) : SolidNode (s.step op).root := by
  cases op with
  | update d p persist kw => exact CMM.update_solid d p persist kw s h
  | refresh p => exact CMM.refresh_solid p s h
  | get p => exact CMM.get_solid p s h
  | reset p create =>
    cases p with
    | none => exact h
    | some p => exact CMM.reset_solid p create s h
  | pop key p => exact CMM.pop_solid key p s h
  | edit fs => exact h

theorem CM.load_solid {fs : Files V} {rn : String} {s : CM V} (h : CM.load fs rn = .ok s) : SolidNode s.root := by
  unfold CM.load at h
  cases hf : fromFiles fs [] fs.tree with
  | error e => rw [hf] at h; cases h
  | ok root => rw [hf] at h; cases h; exact .of_fresh (fromFiles_freshNode _ _ _ _ hf)

/-! ### What is raised -/

/-- What asking for something that is not there raises: `pre` leads to something, `pre` with the rest does not. -/
def View.missing (a : View V) : List String → List String → PyErr
  | _, [] => .valueError
  | pre, x :: rest => match a.slot (pre ++ [x]) with
    | .absent => match a.slot pre with
      | .conf c => match c.getattr x with
        | .error e => e
        | .ok _ => if rest = [] then .valueError else .attributeError
      | .file _ => .attributeError
      | _ => .keyError
    | _ => a.missing (pre ++ [x]) rest

/-- The error for a result that is no config, file or section. -/
def errOf {α : Type} : Except PyErr α → PyErr
  | .error e => e
  | .ok _ => .valueError

namespace HS

theorem missing_walk {s : HS V} (hi : HInv s) (rest : List String) : ∀ (pre : List String) (v : HVal),
    s.find pre = some v → CleanPath s.rootName (pre ++ rest) → (∀ r, s.find (pre ++ rest) ≠ some (.ref r)) →
    errOf (s.walk v rest) = s.view.missing pre rest := by
  induction rest with
  | nil => intro pre v _ _ _; rfl
  | cons x rest ih =>
    intro pre v hf hp hn
    have hp1 : CleanPath s.rootName (pre ++ [x]) := CleanPath.prefix rest _ (by simpa using hp)
    obtain ⟨hp0, hx, hres⟩ := cleanPath_concat.1 hp1
    have hcat := find_concat s pre x
    rw [hf] at hcat
    simp only at hcat
    rw [View.missing, view_slot hp1, view_slot hp0, walk]
    cases hch : s.child v x with
    | some v' =>
      rw [hch] at hcat
      have hsl : s.hslot (pre ++ [x]) ≠ .absent := by
        rcases find_cases hcat with rfl | ⟨r, rfl⟩
        · exact absurd (find_mgr_nil hcat) (by simp)
        · have hb := hi.find_bound hp1 hcat
          unfold hslot
          rw [hcat]
          simp only [slotAt]
          cases ho : s.heap[r]? with
          | none => rw [List.getElem?_eq_none_iff] at ho; omega
          | some o => cases o <;> simp
      have ha : s.attr v x = .ok v' := by
        unfold child at hch
        split at hch
        · cases hch; assumption
        · cases hch
      rw [ha]
      have := ih (pre ++ [x]) v' hcat (by simpa using hp) (by simpa using hn)
      simp only
      rw [this]
    | none =>
      rw [hch] at hcat
      have hsl : s.hslot (pre ++ [x]) = .absent := by
        unfold hslot
        rw [hcat]
      rw [hsl]
      simp only
      rcases find_cases hf with rfl | ⟨r, rfl⟩
      · have := find_mgr_nil hf
        subst this
        obtain ⟨cfg, attrs, map, hs⟩ := hi.root
        rw [if_pos rfl] at hres
        rw [attr_mgr_none hs hx hres hch]
        have : s.hslot [] = .sect (cfg.bind s.confAt) := by
          unfold hslot
          rw [hf]
          simp only [slotAt, hs]
        rw [this]
        rfl
      · have hne : pre ≠ [] := by rintro rfl; rw [find_nil] at hf; cases hf
        rw [if_neg hne] at hres
        have hb := hi.find_bound hp0 hf
        have hs : s.hslot pre = s.slotAt r := by unfold hslot; rw [hf]
        rw [hs]
        unfold slotAt
        cases ho : s.heap[r]? with
        | none => rw [List.getElem?_eq_none_iff] at ho; omega
        | some o =>
          cases o with
          | conf c =>
            rw [attr_conf ho]
            simp only
            cases c.getattr x with
            | error e => rfl
            | ok u =>
              simp only
              rw [walk_none]
              cases rest <;> rfl
          | file l => rw [attr_file ho]; rfl
          | sect nm cfg attrs map =>
            have := hi.name pre r nm cfg attrs map hp0 hf ho
            rw [attr_sect_none ho (by rw [this]; exact hx) hres hch]
            rfl

end HS

namespace CM

/-- One step from something found to the next. -/
theorem walk_concat {t : CM V} {pre : List String} {n : Node V} (h : t.walk pre = .ok n) (q : List String) : t.walk (pre ++ q) =
    n.walk (if pre = [] then managerReserved else sectionReserved) (pre.getLast?.getD t.rootName) q := by
  unfold walk at *
  rw [Node.walk_append, h]
  simp only
  split
  · rename_i he; subst he; cases h; rfl
  · rfl

theorem child_solid {n n' : Node V} (h : SolidNode n) {res : List String} {nm x : String} (hx : x ≠ nm) (hr : x ∉ res)
    (hc : n.child res nm x = .ok n') : SolidNode n' ∨ n' = .other ∧ ∃ c, n = .conf c := by
  unfold Node.child at hc
  cases n with
  | sect cfg attrs map =>
    obtain ⟨h1, h2⟩ := h.sect_inv
    simp only [if_neg hr] at hc
    left
    split at hc
    · split at hc
      · rw [if_neg hx] at hc; cases hc
      · cases hc
    · rename_i hne ha; cases hc; exact h1 _ _ ha hne
    · split at hc
      · rw [if_neg hx] at hc
        split at hc
        · rename_i hm; cases hc; exact h2 _ _ hm
        · cases hc
      · rename_i hm; cases hc; exact h2 _ _ hm
      · cases hc
  | conf c =>
    simp only at hc
    split at hc
    · cases hc; exact .inr ⟨rfl, c, rfl⟩
    · cases hc
  | file l => cases hc
  | own => cases hc
  | other => cases hc

theorem walk_other' (res nm) (rest : List String) : Node.walk (V := V) res nm .other rest =
    if rest = [] then .ok .other else .error .attributeError := by
  cases rest <;> rfl

theorem child_error {cfg : Option (Conf V)} {attrs map} {res : List String} {nm x : String} {e : PyErr}
    (h : Node.child res nm (.sect cfg attrs map) x = .error e) : e = .keyError := by
  unfold Node.child at h
  simp only at h
  split at h
  · cases h
  · split at h
    · split at h
      · split at h
        · cases h
        · cases h; rfl
      · cases h; rfl
    · cases h
    · split at h
      · split at h
        · cases h
        · split at h
          · cases h
          · cases h; rfl
      · cases h
      · cases h; rfl

theorem missing_walk {t : CM V} (rest : List String) : ∀ (pre : List String) (n : Node V), t.walk pre = .ok n → SolidNode n →
    CleanPath t.rootName (pre ++ rest) → (rest = [] → False) → t.view.slot (pre ++ rest) = .absent →
    errOf (t.walk (pre ++ rest)) = t.view.missing pre rest := by
  induction rest with
  | nil => intro pre n _ _ _ h; exact (h rfl).elim
  | cons x rest ih =>
    intro pre n hw hn hp _ habs
    have hp1 : CleanPath t.rootName (pre ++ [x]) := CleanPath.prefix rest _ (by simpa using hp)
    obtain ⟨hp0, hx, hres⟩ := cleanPath_concat.1 hp1
    have hstep := walk_concat hw [x]
    rw [Node.walk] at hstep
    rw [View.missing]
    have hs0 : t.view.slot pre = Node.slotOf (.ok n) := by
      show Node.slotOf (t.walk pre) = _
      rw [hw]
    have hs1 : t.view.slot (pre ++ [x]) = Node.slotOf (t.walk (pre ++ [x])) := rfl
    have hall := walk_concat hw (x :: rest)
    rw [Node.walk] at hall
    cases hc : n.child (if pre = [] then managerReserved else sectionReserved) (pre.getLast?.getD t.rootName) x with
    | error e =>
      rw [hc] at hstep hall
      simp only at hstep hall
      rw [hs1, hstep, hall]
      simp only [Node.slotOf, errOf]
      rw [hs0]
      cases hn with
      | conf c =>
        simp only [Node.slotOf]
        unfold Node.child at hc
        simp only at hc
        cases hg : c.getattr x with
        | error e' => rw [hg] at hc; cases hc; rfl
        | ok u => rw [hg] at hc; cases hc
      | file l => cases hc; rfl
      | sect h1 h2 => simp only [Node.slotOf]; exact child_error hc
    | ok n' =>
      rw [hc] at hstep hall
      simp only at hstep hall
      have hw1 : t.walk (pre ++ [x]) = .ok n' := hstep
      rcases child_solid hn hx hres hc with h' | ⟨rfl, c, rfl⟩
      · have hne : rest = [] → False := by
          rintro rfl
          rw [hs1, hw1] at habs
          cases h' <;> cases habs
        have := ih (pre ++ [x]) n' hw1 h' (by simpa using hp) hne (by simpa using habs)
        rw [show pre ++ x :: rest = pre ++ [x] ++ rest by simp, this, hs1, hw1]
        cases h' <;> rfl
      · rw [hs1, hw1, hs0, hall, walk_other']
        simp only [Node.slotOf]
        unfold Node.child at hc
        simp only at hc
        cases hg : c.getattr x with
        | error e' => rw [hg] at hc; cases hc
        | ok u =>
          simp only
          cases rest <;> rfl

end CM

theorem View.missing_append {a : View V} (rest : List String) : ∀ (q pre : List String),
    (∀ k, k ≤ q.length → a.slot (pre ++ q.take k) ≠ .absent) → a.missing pre (q ++ rest) = a.missing (pre ++ q) rest := by
  intro q
  induction q with
  | nil => intro pre _; simp
  | cons y q ih =>
    intro pre h
    have h1 : a.slot (pre ++ [y]) ≠ .absent := by simpa using h 1 (by simp)
    rw [List.cons_append, View.missing]
    simp only
    rw [ih (pre ++ [y]) (fun k hk => by simpa using h (k + 1) (by simpa using hk))]
    simp

namespace HS

theorem hslot_find {s : HS V} {q : List String} (h : s.hslot q ≠ .absent) : ∃ v, s.find q = some v := by
  unfold hslot at h
  cases hf : s.find q with
  | none => rw [hf] at h; exact absurd rfl h
  | some v => exact ⟨v, rfl⟩

theorem find_hslot {s : HS V} (hi : HInv s) {q : List String} (hq : CleanPath s.rootName q) {v : HVal} (h : s.find q = some v) :
    s.hslot q ≠ .absent := by
  unfold hslot
  rw [h]
  rcases find_cases h with rfl | ⟨r, rfl⟩
  · obtain ⟨cfg, attrs, map, hs⟩ := hi.root
    simp [slotAt, hs]
  · have hb := hi.find_bound hq h
    simp only [slotAt]
    cases ho : s.heap[r]? with
    | none => rw [List.getElem?_eq_none_iff] at ho; omega
    | some o => cases o <;> simp

theorem find_of_prefix {s : HS V} (t : List String) : ∀ (q : List String) {v : HVal}, s.find (q ++ t) = some v → ∃ v', s.find q = some v' := by
  induction t with
  | nil => intro q v h; rw [List.append_nil] at h; exact ⟨v, h⟩
  | cons x t ih =>
    intro q v h
    obtain ⟨v', h'⟩ := ih (q ++ [x]) (by simpa using h)
    exact find_parent h'

theorem prefix_there {s : HS V} (hi : HInv s) {q : List String} (hq : CleanPath s.rootName q) (h : s.hslot q ≠ .absent) (k : Nat) :
    s.hslot (q.take k) ≠ .absent := by
  obtain ⟨v, hv⟩ := hslot_find h
  rw [← List.take_append_drop k q] at hv
  obtain ⟨v', hv'⟩ := find_of_prefix _ _ hv
  exact find_hslot hi (CleanPath.take hq k) hv'

theorem nothing_below {s : HS V} (hi : HInv s) {q rest : List String} {x : String} (hp : CleanPath s.rootName (q ++ x :: rest))
    (hx : s.hslot (q ++ [x]) = .absent) (r : Nat) : s.find (q ++ x :: rest) ≠ some (.ref r) := by
  intro h
  obtain ⟨v, hv⟩ := find_of_prefix rest (q ++ [x]) (by simpa using h)
  exact find_hslot hi (CleanPath.prefix rest _ (by simpa using hp)) hv hx

end HS

/-! ### The calls -/

theorem View.clean_missing {a : View V} (rest : List String) : ∀ (pre : List String), CleanPath a.rootName (pre ++ rest) →
    a.clean.missing pre rest = a.missing pre rest := by
  induction rest with
  | nil => intro pre _; rfl
  | cons x rest ih =>
    intro pre h
    have h1 : CleanPath a.rootName (pre ++ [x]) := CleanPath.prefix rest _ (by simpa using h)
    have h0 : CleanPath a.rootName pre := CleanPath.prefix [x] _ h1
    rw [View.missing, View.missing, View.clean_slot h1, View.clean_slot h0, ih (pre ++ [x]) (by simpa using h)]

namespace HM

theorem getRef_missing {s : HS V} (hi : HInv s) {p : List String} (hp : CleanPath s.rootName p)
    (h : ∀ r, s.find p ≠ some (.ref r)) : getRef p s = (.error (s.view.missing [] p), s) := by
  have hm := HS.missing_walk hi p [] .mgr rfl hp h
  unfold getRef
  rw [M.bind_ok (M.get_run s), M.bind_run, M.liftE_run]
  unfold HS.find at h
  cases hw : s.walk .mgr p with
  | error e => rw [hw] at hm; simp only; rw [← hm]; rfl
  | ok v =>
    rw [hw] at h hm
    cases v with
    | ref r => exact absurd rfl (h r)
    | mgr => simp only; rw [← hm]; rfl
    | none => simp only; rw [← hm]; rfl
    | other => simp only; rw [← hm]; rfl

theorem getDefault_missing {s : HS V} (hi : HInv s) {p : List String} (hp : CleanPath s.rootName p)
    (h : ∀ r, s.find p ≠ some (.ref r)) : getDefault p false s = (.error (s.view.missing [] p), s) := by
  have hm := HS.missing_walk hi p [] .mgr rfl hp h
  unfold getDefault
  rw [M.bind_ok (M.get_run s)]
  simp only
  rw [M.bind_run, M.liftE_run]
  unfold HS.find at h
  cases hw : s.walk .mgr p with
  | error e => rw [hw] at hm; rw [← hm]; simp [errOf]
  | ok v =>
    rw [hw] at h hm
    cases v with
    | ref r => exact absurd rfl (h r)
    | mgr => simp only; rw [← hm]; rfl
    | none => simp only; rw [← hm]; rfl
    | other => simp only; rw [← hm]; rfl

end HM

namespace CMM

theorem getFunc_missing {t : CM V} (ht : SolidNode t.root) {p : List String} (hp : CleanPath t.rootName p) (hne : p ≠ [])
    (h : t.view.slot p = .absent) : getFuncOrSectionConfigs p t = (.error (t.view.missing [] p), t) := by
  have hm := CM.missing_walk p [] t.root rfl ht hp hne h
  rw [List.nil_append] at hm
  unfold getFuncOrSectionConfigs
  rw [M.bind_ok (M.get_run t), M.bind_run, M.liftE_run]
  have hs : t.view.slot p = Node.slotOf (t.walk p) := rfl
  rw [hs] at h
  cases hw : t.walk p with
  | error e => rw [hw] at hm; rw [← hm]; rfl
  | ok n =>
    rw [hw] at hm h
    rw [← hm]
    cases n with
    | conf c => cases h
    | file l => cases h
    | sect cfg attrs map => cases h
    | own => rfl
    | other => rfl

theorem getDefault_missing {t : CM V} (ht : SolidNode t.root) {p : List String} (hp : CleanPath t.rootName p) (hne : p ≠ [])
    (h : t.view.slot p = .absent) : getDefault t p false = .error (t.view.missing [] p) := by
  have hm := CM.missing_walk p [] t.root rfl ht hp hne h
  rw [List.nil_append] at hm
  have hs : t.view.slot p = Node.slotOf (t.walk p) := rfl
  rw [hs] at h
  unfold getDefault defaultKind
  cases hw : t.walk p with
  | error e => rw [hw] at hm; rw [← hm]; simp [errOf]
  | ok n =>
    rw [hw] at hm h
    rw [← hm]
    cases n with
    | conf c => cases h
    | file l => cases h
    | sect cfg attrs map => cases h
    | own => rfl
    | other => rfl

end CMM

namespace Linked
variable {s : HS V} {t : CM V}

/-- A call that fails when the config is asked for fails in the same way in both. -/
theorem missing (h : Linked s t) (hs : SolidNode t.root) {p : List String} (hp : CleanPath s.rootName p) (hne : p ≠ [])
    (hn : ∀ r, s.find p ≠ some (.ref r)) :
    HM.getRef p s = (.error (s.view.missing [] p), s) ∧ CMM.getFuncOrSectionConfigs p t = (.error (s.view.missing [] p), t) ∧
    HM.getDefault p false s = (.error (s.view.missing [] p), s) ∧ CMM.getDefault t p false = .error (s.view.missing [] p) := by
  have hp' : CleanPath t.rootName p := by rw [← h.rootName]; exact hp
  have hslot : s.hslot p = .absent := by
    unfold HS.hslot
    cases hf : s.find p with
    | none => rfl
    | some v =>
      rcases HS.find_cases hf with rfl | ⟨r, rfl⟩
      · exact absurd (HS.find_mgr_nil hf) hne
      · exact absurd hf (hn r)
  have habs : t.view.slot p = .absent := by
    rw [← View.clean_slot (a := t.view) hp', ← h.view, HS.view_slot hp, hslot]
  have hm : t.view.missing [] p = s.view.missing [] p := by
    rw [h.view, View.clean_missing (a := t.view) p [] hp']
  refine ⟨HM.getRef_missing h.fine.inv hp hn, ?_, HM.getDefault_missing h.fine.inv hp hn, ?_⟩
  · rw [CMM.getFunc_missing hs hp' hne habs, hm]
  · rw [CMM.getDefault_missing hs hp' hne habs, hm]

theorem resetSect [BEq V] (h : Linked s t) {p : List String} (hp : CleanPath s.rootName p) (hne : p ≠ []) {c : Conf V}
    (hs : s.hslot p = .sect (some c)) (b : Bool) : s.answer (.reset (some p) b) = t.answer (.reset (some p) b) ∧
      Linked (s.step (.reset (some p) b)) (t.step (.reset (some p) b)) := by
  have hp' : CleanPath t.rootName p := by rw [← h.rootName]; exact hp
  have ht : t.view.slot p = .sect (some c) := by
    rw [← View.clean_slot (a := t.view) hp', ← h.view, HS.view_slot hp, hs]
  obtain ⟨s', h1, h2⟩ := HM.reset_sect_err h.fine.inv hp hne hs b
  have hf := h.fs
  have h3 : CMM.reset (some p) b t = (.error (HM.resetSectErr s.fs p), t) := by
    show (M.get >>= fun t => M.liftE (CMM.getDefault t p b) >>= fun value => CMM.set p value b) t = _
    rw [M.bind_ok (M.get_run t), M.bind_run, M.liftE_run]
    have hset : ∀ n : Node V, (∀ c, n ≠ .conf c) → CMM.set p n b t = (.error .typeError, t) := by
      intro n hn
      unfold CMM.set
      have htc : M.tryCatch (CMM.getFuncOrSectionConfigs p) (fun e => if e = .keyError then pure none else M.raise e) t =
          (.ok (some c), t) := by
        unfold M.tryCatch
        rw [CMM.getFunc_sect ht]
      rw [M.bind_ok htc]
      cases n with
      | conf c => exact absurd rfl (hn c)
      | _ => rfl
    obtain ⟨attrs, map, hw⟩ := CM.walk_of_slot_sect ht
    unfold CMM.getDefault CMM.defaultKind HM.resetSectErr
    rw [hw, hf]
    simp only
    cases t.fs.tree.at? p with
    | none => exact hset _ (by simp)
    | some tr =>
      simp only
      cases hfr : fromFiles t.fs p tr with
      | error e => rfl
      | ok n =>
        simp only
        have hn := fromFiles_freshNode _ _ _ _ hfr
        exact hset n (by rintro c rfl; cases hn)
  simp only [HS.answer, CM.answer, HS.step, CM.step]
  rw [h1, h3]
  exact ⟨rfl, ⟨⟨h2.inv, by rw [h2.view]; exact h.fine.own⟩, by rw [h2.view]; exact h.view⟩⟩

end Linked

end Verif.Model
