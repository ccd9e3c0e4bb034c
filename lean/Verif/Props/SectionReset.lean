import Verif.Props.Tree
import Verif.Props.SectionUpdate
import Verif.Lemmas.SetAt

/-
Property theorems about resetting sections (C77) and resetting with creation (C78).
-/

namespace Verif.Props
open Verif.Py Verif.Model

variable {V : Type}

/-! ## C77 -/

/-- There is a folder at the path. -/
inductive FolderAt : DirTree → List String → Prop where
  | here {t} : FolderAt t []
  | there {b files dirs x t p} : (x, t) ∈ dirs → FolderAt t p → FolderAt (.mk b files dirs) (x :: p)

/-- What the folder at a path gives when it is loaded on its own is what is found there after everything is loaded. -/
theorem fromFiles_at {fs : Files V} {t : DirTree} {q : List String} {b : Bool} (hi : t.HasFolder q b) :
    ∃ t', t.at? q = some t' ∧ ∀ (res nm) (pre : List String) (n : Node V), fromFiles fs pre t = .ok n → PlainPath nm q →
    NotReserved res q → ∃ n', fromFiles fs (pre ++ q) t' = .ok n' ∧ n.walk res nm q = .ok n' := by
  induction hi with
  | here =>
    rename_i b files dirs
    refine ⟨_, rfl, ?_⟩
    intro res nm pre n h _ _
    exact ⟨n, by rw [List.append_nil]; exact h, rfl⟩
  | @there b files dirs x t p b' hx hnd _ ih =>
    obtain ⟨t', h1, h2⟩ := ih
    refine ⟨t', ?_, ?_⟩
    · rw [DirTree.at?, AList.get?_of_mem hnd hx]; exact h1
    intro res nm pre n h hq hr
    rw [fromFiles] at h
    simp only at h
    split at h
    · simp at h
    · split at h
      · simp at h
      · rename_i sections hs
        simp only [Except.ok.injEq] at h
        subst h
        have hkeys := fromFilesDirs_keys hs
        have hxs : x ∈ sections.map Prod.fst := by
          rw [hkeys]; exact List.mem_map.2 ⟨_, hx, rfl⟩
        obtain ⟨⟨x', m⟩, hm, hxx⟩ := List.mem_map.1 hxs
        simp only at hxx
        subst hxx
        obtain ⟨d, hd, hfd⟩ := fromFilesDirs_mem hs _ _ hm
        have : d = t := nodup_fst_unique hnd hd hx
        subst this
        obtain ⟨n', h3, h4⟩ := h2 sectionReserved _ (pre ++ [x']) m hfd hq.2 hr.2
        refine ⟨n', by rw [← h3]; simp, ?_⟩
        rw [Node.walk, Node.child_sect _ _ _ _ _ hq.1, if_neg hr.1, List.foldl_append,
          AList.get?_foldl_set_const sections _ m]
        · exact h4
        · intro v' hv'
          exact nodup_fst_unique (by rw [hkeys]; exact hnd) hv' hm
        · exact .inl hm

theorem at?_none {t : DirTree} {p : List String} (h : ¬ FolderAt t p) : t.at? p = none := by
  induction p generalizing t with
  | nil => exact absurd .here h
  | cons x p ih =>
    obtain ⟨b, files, dirs⟩ := t
    rw [DirTree.at?]
    cases hg : AList.get? dirs x with
    | none => rfl
    | some t => exact ih (fun hf => h (.there (AList.mem_of_get? hg) hf))

theorem fromFiles_sect {fs : Files V} {t : DirTree} {pre : List String} {n : Node V} (h : fromFiles fs pre t = .ok n) :
    ∃ cfg map, n = .sect cfg [] map := by
  obtain ⟨b, files, dirs⟩ := t
  rw [fromFiles] at h
  simp only at h
  split at h
  · cases h
  · split at h
    · cases h
    · cases h; exact ⟨_, _, rfl⟩

/-- Resetting a section without a config. -/
theorem reset_plain [BEq V] {s : CM V} {p : List String} {attrs map : List (String × Node V)}
    (hw : s.walk p = .ok (.sect none attrs map)) (create : Bool) {value : Node V}
    (hd : CMM.getDefault s p create = .ok value) :
    CMM.reset (some p) create s = match CMM.setFuncOrSectionConfig p value create s with
      | (.ok (), s') => (.ok (value, true), s')
      | (.error e, s') => (.error e, s') := by
  have hslot : s.view.slot p = .sect none := by
    show Node.slotOf (s.walk p) = _
    rw [hw]; rfl
  show (M.get >>= fun s => M.liftE (CMM.getDefault s p create) >>= fun value => CMM.set p value create) s = _
  rw [M.bind_ok (M.get_run s), M.bind_run, M.liftE_run, hd]
  simp only
  unfold CMM.set
  have hcur : M.tryCatch (CMM.getFuncOrSectionConfigs p)
      (fun e => if e = .keyError then pure none else M.raise e) s = (.ok none, s) := by
    unfold M.tryCatch
    rw [CMM.getFunc_sect hslot]
  rw [M.bind_ok hcur]
  simp only
  rw [M.bind_run]
  split <;> rename_i h <;> simp only [h] <;> rfl

theorem reset_error [BEq V] {s : CM V} {p : List String} {create : Bool} {e : PyErr}
    (hd : CMM.getDefault s p create = .error e) : CMM.reset (some p) create s = (.error e, s) := by
  show (M.get >>= fun s => M.liftE (CMM.getDefault s p create) >>= fun value => CMM.set p value create) s = _
  rw [M.bind_ok (M.get_run s), M.bind_run, M.liftE_run, hd]

theorem walk_dropLast {s : CM V} {p : List String} (hp : p ≠ []) {n : Node V} (hw : s.walk p = .ok n) :
    ∃ q x m, p = q ++ [x] ∧ s.walk q = .ok m := by
  refine ⟨p.dropLast, p.getLast hp, ?_⟩
  have hcat : p = p.dropLast ++ [p.getLast hp] := (List.dropLast_concat_getLast hp).symm
  unfold CM.walk at hw ⊢
  rw [hcat, Node.walk_append] at hw
  split at hw
  · cases hw
  · rename_i m hm; exact ⟨m, hcat, hm⟩

/-- Resetting a section without a config stores what was loaded as an attribute of the section around it. -/
theorem reset_stored [BEq V] {s : CM V} {p : List String} (hp : p ≠ []) {attrs map : List (String × Node V)}
    (hw : s.walk p = .ok (.sect none attrs map)) {value : Node V} (hd : CMM.getDefault s p false = .ok value) :
    ∃ q x, p = q ++ [x] ∧ CMM.reset (some p) false s = (.ok (value, true), s.modifyAt q (fun parent => parent.setAttr x value)) := by
  obtain ⟨q, x, m, rfl, hm⟩ := walk_dropLast hp hw
  refine ⟨q, x, rfl, ?_⟩
  rw [reset_plain hw false hd]
  unfold CMM.setFuncOrSectionConfig
  simp only [List.dropLast_concat, Bool.false_eq_true, if_false, hm]
  simp

theorem setAttr_ne_own (x : String) (v : Node V) (n : Node V) (h : n ≠ .own) : n.setAttr x v ≠ .own := by
  cases n <;> first | exact absurd rfl h | simp [Node.setAttr]

theorem child_of_setAttr {s : CM V} {q : List String} {x : String} {attrs map cfg} {value : Node V}
    (hv : value ≠ .own) (hw : s.walk (q ++ [x]) = .ok (.sect cfg attrs map)) (t : List String) :
    (s.modifyAt q (fun parent => parent.setAttr x value)).walk (q ++ [x] ++ t) = value.walk sectionReserved x t := by
  unfold CM.walk at hw
  rw [Node.walk_append] at hw
  split at hw
  · cases hw
  · rename_i m hm
    -- the section around it
    have hw1 : m.walk (if q = [] then managerReserved else sectionReserved) (q.getLast?.getD s.rootName) [x] =
        .ok (.sect cfg attrs map) := by
      split at hw
      · rename_i hq; subst hq
        rw [if_pos rfl]
        cases hm
        exact hw
      · rename_i hq; rw [if_neg hq]; exact hw
    obtain ⟨c0, a0, m0, rfl⟩ := Node.sect_of_walk hw1
    have hmod := Node.walk_modifyAt_below (setAttr_ne_own x value) q (x :: t) hm
    show Node.walk managerReserved s.rootName (s.root.modifyAt managerReserved s.rootName q _) _ = _
    rw [List.append_assoc]
    show Node.walk managerReserved s.rootName (s.root.modifyAt managerReserved s.rootName q _) (q ++ x :: t) = _
    rw [hmod]
    have hc : Node.child (if q = [] then managerReserved else sectionReserved) (q.getLast?.getD s.rootName)
        (.sect c0 a0 m0) x = .ok (.sect cfg attrs map) := by
      rw [Node.walk] at hw1
      split at hw1
      · cases hw1
      · rename_i hc; cases hw1; exact hc
    rw [Node.walk]
    simp only [Node.setAttr]
    rw [Node.child_attr (Node.child_sect_cases hc).1 (AList.get?_set_at _ _ _) hv]

/-- C77 (missing: sections with a config, see `C77_configured_violated`, and objects that are created already, see
`C77_created_violated`): after the reset of a section everything at and below its path is as in a manager that loads the files now. -/
theorem C77_reset_partial [BEq V] (s : CM V) (p : List String) (hp : p ≠ []) (attrs map : List (String × Node V))
    (hw : s.walk p = .ok (.sect none attrs map)) (b : Bool) (hf : s.fs.tree.HasFolder p b)
    (hplain : PlainPath s.rootName p) (hres : NotReserved managerReserved p) (fresh : CM V)
    (hfresh : CM.load s.fs s.rootName = .ok fresh) :
    ∃ n, (CMM.reset (some p) false s).1 = .ok (n, true) ∧
      ∀ q, (CMM.reset (some p) false s).2.walk (p ++ q) = fresh.walk (p ++ q) := by
  unfold CM.load at hfresh
  cases hr : fromFiles s.fs [] s.fs.tree with
  | error e => rw [hr] at hfresh; cases hfresh
  | ok root =>
    rw [hr] at hfresh
    cases hfresh
    obtain ⟨t', h1, h2⟩ := fromFiles_at (fs := s.fs) hf
    obtain ⟨n, h3, h4⟩ := h2 managerReserved s.rootName [] root hr hplain hres
    rw [List.nil_append] at h3
    have hd : CMM.getDefault s p false = .ok n := by
      unfold CMM.getDefault CMM.defaultKind
      rw [hw]
      simp only [h1]
      exact h3
    obtain ⟨q, x, rfl, he⟩ := reset_stored hp hw hd
    obtain ⟨cfg, map', rfl⟩ := fromFiles_sect h3
    rw [he]
    refine ⟨_, rfl, ?_⟩
    intro t
    rw [child_of_setAttr (by simp) hw]
    unfold CM.walk
    rw [Node.walk_append, h4]
    simp

/-- C77: the reset of a section without a config changes nothing that is not at or below its path. -/
theorem C77_frame [BEq V] (s : CM V) (p : List String) (hp : p ≠ []) (attrs map : List (String × Node V))
    (hw : s.walk p = .ok (.sect none attrs map)) :
    (∀ q, ¬ p <+: q → (CMM.reset (some p) false s).2.view.slot q = s.view.slot q) ∧
    (CMM.reset (some p) false s).2.fs = s.fs ∧ (CMM.reset (some p) false s).2.localConf = s.localConf := by
  cases hd : CMM.getDefault s p false with
  | error e => rw [reset_error hd]; exact ⟨fun _ _ => rfl, rfl, rfl⟩
  | ok value =>
    obtain ⟨q, x, rfl, he⟩ := reset_stored hp hw hd
    rw [he]
    refine ⟨?_, rfl, rfl⟩
    intro r hr
    show Node.slot managerReserved s.rootName (s.root.modifyAt managerReserved s.rootName q _) r = _
    refine Node.slot_modifyAt_frame (setAttr_ne_own x value) (fun c => rfl) (Q := fun r => ¬ [x] <+: r)
      (fun res nm m r hq => Node.slot_setAttr_ne res nm m value x r hq) q r ?_
    rintro r' rfl ⟨u, hu⟩
    exact hr ⟨u, by rw [← hu, List.append_assoc]⟩

/-- C77, when the folder is gone: nothing is left below the section. -/
theorem C77_gone [BEq V] (s : CM V) (p : List String) (hp : p ≠ []) (attrs map : List (String × Node V))
    (hw : s.walk p = .ok (.sect none attrs map)) (hf : ¬ FolderAt s.fs.tree p) (x : String) (hx : x ∉ sectionReserved)
    (q : List String) : (CMM.reset (some p) false s).2.walk (p ++ x :: q) = .error .keyError := by
  have hd : CMM.getDefault s p false = .ok (.sect none [] []) := by
    unfold CMM.getDefault CMM.defaultKind
    rw [hw]
    simp only [at?_none hf]
  obtain ⟨r, y, rfl, he⟩ := reset_stored hp hw hd
  rw [he, child_of_setAttr (by simp) hw, Node.walk]
  simp [Node.child, hx, AList.get?]

/-- C77, when the folder cannot be loaded: the reset raises and changes nothing. -/
theorem C77_failed [BEq V] (s : CM V) (p : List String) (hp : p ≠ []) (cfg : Option (Conf V)) (attrs map : List (String × Node V))
    (hw : s.walk p = .ok (.sect cfg attrs map)) (e : PyErr) (he : (CMM.reset (some p) false s).1 = .error e) :
    (CMM.reset (some p) false s).2 = s := by
  cases cfg with
  | some c => exact (C13_section_reset_violated s p c attrs map hw false).2
  | none =>
    cases hd : CMM.getDefault s p false with
    | error e => rw [reset_error hd]
    | ok value =>
      obtain ⟨q, x, rfl, h⟩ := reset_stored hp hw hd
      rw [h] at he
      cases he

/-- C77 fails for every section that has a config: the reset raises, and everything stays as it is. -/
theorem C77_configured_violated [BEq V] (s : CM V) (p : List String) (c : Conf V) (attrs map : List (String × Node V))
    (hw : s.walk p = .ok (.sect (some c) attrs map)) (create : Bool) :
    (∃ e, (CMM.reset (some p) create s).1 = .error e) ∧ (CMM.reset (some p) create s).2 = s :=
  C13_section_reset_violated s p c attrs map hw create

/-- C77 fails for objects that are created already: none of them is touched by the reset of a section. -/
theorem C77_created_violated [BEq V] (s : RS V) (hs : s.Reachable) (p : List String)
    (hreg : ∀ k, s.reg.lookup p ≠ .ok (.item k)) (create : Bool) (q : List String) :
    created (s.step (.reset (some p) create)) q = created s q := by
  have hn : s.objs.get? p = none := by
    cases h : s.objs.get? p with
    | none => rfl
    | some o => exact absurd (hs.inv.reg p o h) (hreg _)
  show (RM.reset (some p) create s).2.objs.get? q = _
  unfold RM.reset
  rw [M.bind_run]
  unfold RM.liftC
  cases h : CMM.reset (some p) create s.cm with
  | mk r t =>
    cases r with
    | error e => rfl
    | ok r =>
      obtain ⟨n, b⟩ := r
      cases b with
      | false => rfl
      | true =>
        cases n with
        | conf c =>
          simp only
          unfold RM.applyToLoaded
          rw [M.bind_ok (M.get_run _)]
          simp only [hn]
          rfl
        | _ => rfl

/-- `main/sub/func.py`: `a = 0`; no `section.py`. -/
def bareFiles : Files Nat where
  read
    | .item ["main", "sub", "func"] => .ok (Dict.ofList [("a", 0)])
    | .item _ => .error .osError
    | .sect _ => .error .osError
  tree := .mk false [] [("main", .mk false [] [("sub", .mk false ["func"] [])])]

def bare : CM Nat where
  fs := bareFiles
  rootName := "defaults"
  root := .sect none [] [("main", .sect none [] [("sub", .sect none [] [("func", .file (.item ["main", "sub", "func"]))])])]
  localConf := Conf.ofDict Dict.empty

theorem bare_load : CM.load bareFiles "defaults" = .ok bare := by rfl

/-- `bare` after `update(a=7)` of the item. -/
def bareUpdated : CM Nat :=
  bare.step (.update none (some ["main", "sub", "func"]) true (Dict.ofList [("a", 7)]))

/-- The project with the function registered. -/
def bareRunner : RS Nat where
  cm := bare
  reg := ⟨[], .coll false [("main", .coll false [("sub", .coll false [("func", .item demoFunc)])])]⟩
  objs := Dict.empty
  nextId := 0

/-- The hypotheses of C77 hold, and the reset undoes the update. -/
example : (∃ attrs map, bareUpdated.walk ["main", "sub"] = .ok (.sect none attrs map)) ∧
    bareUpdated.fs.tree.HasFolder ["main", "sub"] false ∧ PlainPath bareUpdated.rootName ["main", "sub"] ∧
    NotReserved managerReserved ["main", "sub"] ∧ CM.load bareUpdated.fs bareUpdated.rootName = .ok bare ∧
    (∃ c, bareUpdated.walk ["main", "sub", "func"] = .ok (.conf c) ∧ c.values.get? "a" = some 7) ∧
    (CMM.reset (some ["main", "sub"]) false bareUpdated).2.walk ["main", "sub", "func"] =
      .ok (.file (.item ["main", "sub", "func"])) :=
  ⟨⟨_, _, rfl⟩, .there (t := .mk false [] [("sub", .mk false ["func"] [])]) (by simp) (by simp)
    (.there (t := .mk false ["func"] []) (by simp) (by simp) .here), by decide, by decide, rfl, ⟨_, rfl, rfl⟩, rfl⟩

/-- The hypotheses of `C77_gone`: the folder is deleted. -/
example : let s : CM Nat := bare.step (.edit ⟨bareFiles.read, .mk false [] [("main", .mk false [] [])]⟩)
    (∃ attrs map, s.walk ["main", "sub"] = .ok (.sect none attrs map)) ∧ ¬ FolderAt s.fs.tree ["main", "sub"] := by
  refine ⟨⟨_, _, rfl⟩, ?_⟩
  intro h
  cases h with
  | there hx h =>
    rw [List.mem_singleton] at hx
    cases hx
    cases h with
    | there hx h => cases hx

/-- An instance of `C77_created_violated`: the function got before the reset keeps the updated value. -/
example : (let s := ((bareRunner.step (.get ["main", "sub", "func"])).step
      (.update none (some ["main", "sub", "func"]) true (Dict.ofList [("a", 7)]))).step (.reset (some ["main", "sub"]) false)
    gotBound "a" (RM.get ["main", "sub", "func"] s).1 = some 7 ∧
    (match (CMM.get ["main", "sub", "func"] s.cm).1 with
      | .ok (some c) => c.values.get? "a"
      | _ => none) = some 0) := by
  decide +kernel

/-! ## C78 -/

theorem walk_prefix_error {s : CM V} {q r : List String} {x : String} {e : PyErr} (h : s.walk (q ++ [x]) = .error e) :
    s.walk (q ++ x :: r) = .error e := by
  unfold CM.walk at h ⊢
  rw [show q ++ x :: r = (q ++ [x]) ++ r by simp, Node.walk_append, h]

theorem getFunc_error {s : CM V} {p : List String} {e : PyErr} (h : s.walk p = .error e) :
    CMM.getFuncOrSectionConfigs p s = (.error e, s) := by
  unfold CMM.getFuncOrSectionConfigs
  rw [M.bind_ok (M.get_run s), M.bind_run, M.liftE_run, h]

/-- C78, for an item without a config (missing: names that sections have as attributes, see `C78_reserved_violated`; items that have
a config, see `C78_existing_violated`): the item gets the values of its file, the sections on the way are created, and nothing else
is changed. -/
theorem C78_new_partial [BEq V] (s : CM V) (hs : s.Reachable) (q : List String) (x : String) (r : List String)
    (cfg : Option (Conf V)) (attrs map : List (String × Node V))
    (hq : s.walk q = .ok (.sect cfg attrs map)) (hx : s.walk (q ++ [x]) = .error .keyError)
    (hr : NotReserved sectionReserved r) (v : Dict String V) (hv : FileGives s (q ++ x :: r) v) :
    (CMM.reset (some (q ++ x :: r)) true s).1 = .ok (.conf (Conf.ofFile (.item (q ++ x :: r)) v), true) ∧
    (CMM.reset (some (q ++ x :: r)) true s).2.walk (q ++ x :: r) = .ok (.conf (Conf.ofFile (.item (q ++ x :: r)) v)) ∧
    (∀ t, ¬ (q ++ [x]) <+: t → (CMM.reset (some (q ++ x :: r)) true s).2.view.slot t = s.view.slot t) ∧
    (CMM.reset (some (q ++ x :: r)) true s).2.fs = s.fs ∧
    (CMM.reset (some (q ++ x :: r)) true s).2.localConf = s.localConf ∧
    (CMM.reset (some (q ++ x :: r)) true s).2.rootName = s.rootName := by
  have hw := walk_prefix_error (r := r) hx
  have hd : CMM.getDefault s (q ++ x :: r) true = .ok (.conf (Conf.ofFile (.item (q ++ x :: r)) v)) := by
    unfold CMM.getDefault CMM.defaultKind
    rw [hw]
    simp only [and_self, if_true]
    unfold Files.load
    rw [show s.fs.read (.item (q ++ x :: r)) = _ from hv]
    rfl
  obtain ⟨n', h1, h2, h3⟩ := CMM.awc_below (v := .conf (Conf.ofFile (.item (q ++ x :: r)) v)) (by simp) hr q hs.own hq hx
  have he : CMM.reset (some (q ++ x :: r)) true s =
      (.ok (.conf (Conf.ofFile (.item (q ++ x :: r)) v), true), { s with root := n' }) := by
    show (M.get >>= fun s => M.liftE (CMM.getDefault s (q ++ x :: r) true) >>= fun value => CMM.set (q ++ x :: r) value true) s = _
    rw [M.bind_ok (M.get_run s), M.bind_run, M.liftE_run, hd]
    simp only
    unfold CMM.set
    have hcur : M.tryCatch (CMM.getFuncOrSectionConfigs (q ++ x :: r))
        (fun e => if e = .keyError then pure none else M.raise e) s = (.ok none, s) := by
      unfold M.tryCatch
      rw [getFunc_error hw]
      rfl
    rw [M.bind_ok hcur]
    simp only
    rw [M.bind_ok (a := ()) (s' := { s with root := n' }) (by
      unfold CMM.setFuncOrSectionConfig
      simp only [if_true, h1])]
    rfl
  rw [he]
  refine ⟨rfl, ?_, h3, rfl, rfl, rfl⟩
  have h4 := CMM.walk_nest (.conf (Conf.ofFile (.item (q ++ x :: r)) v)) [] r x hr
  rw [List.append_nil] at h4
  exact (h2 r).trans h4

/-- C78: if the path of a new item leads through something that is not a section, or its file cannot be loaded, the reset raises and
changes nothing. -/
theorem C78_refused [BEq V] (s : CM V) (p : List String) (e : PyErr)
    (h : (s.walk p = .error e ∧ e ≠ .keyError) ∨ (s.walk p = .error .keyError ∧ s.fs.read (.item p) = .error e)) :
    CMM.reset (some p) true s = (.error e, s) := by
  apply reset_error
  unfold CMM.getDefault CMM.defaultKind
  rcases h with ⟨hw, he⟩ | ⟨hw, he⟩
  · rw [hw]
    simp only [he, false_and, if_false]
  · rw [hw]
    simp only [and_self, if_true]
    unfold Files.load
    rw [he]
    rfl

/-- C78: below an item whose config is not loaded, or has no value of that name, nothing can be created. -/
theorem C78_below_item [BEq V] (s : CM V) (q : List String) (x : String) (r : List String)
    (h : (∃ l, s.walk q = .ok (.file l)) ∨ ∃ c, s.walk q = .ok (.conf c) ∧ x ∉ c.values.keys) :
    CMM.reset (some (q ++ x :: r)) true s = (.error .attributeError, s) := by
  refine C78_refused s _ _ (.inl ⟨walk_prefix_error ?_, by simp⟩)
  unfold CM.walk at h ⊢
  rw [Node.walk_append]
  rcases h with ⟨l, hl⟩ | ⟨c, hc, hx⟩
  · rw [hl]
    simp only
    split
    · rename_i hq
      subst hq
      rw [Node.walk] at hl
      rw [Except.ok.inj hl]
      rfl
    · rfl
  · have hg : c.getattr x = .error .attributeError := by
      unfold Conf.getattr
      rw [(Dict.get?_eq_none_iff _ _).2 hx]
    rw [hc]
    simp only
    split
    · rename_i hq
      subst hq
      rw [Node.walk] at hc
      rw [Except.ok.inj hc]
      simp [Node.walk, Node.child, hg]
    · simp [Node.walk, Node.child, hg]

theorem getFunc_item {s : CM V} {p : List String} (hp : ConfigItem s p) {c : Conf V} (hc : ownConfig s p = .ok c) :
    CMM.getFuncOrSectionConfigs p s = (.ok (some c), (CMM.storeLoaded p c s).2) := by
  unfold CMM.getFuncOrSectionConfigs
  rw [M.bind_ok (M.get_run s), M.bind_run, M.liftE_run]
  unfold ownConfig at hc
  rcases hp.found with ⟨c', h⟩ | ⟨l, h⟩
  · rw [h] at hc ⊢
    cases hc
    rfl
  · rw [h] at hc ⊢
    simp only at hc
    simp only [M.bind_run, CMM.configOf, hc, Node.isSect]
    rfl

theorem attrValue_plain {s : CM V} {q : List String} {x : String} (hp : ConfigItem s (q ++ [x])) (c : Conf V) {cfg attrs map}
    (hq : s.walk q = .ok (.sect cfg attrs map)) :
    CMM.attrValue (.sect cfg attrs map) (q.getLast?.getD s.rootName) x c = .conf c := by
  have hx : x ≠ q.getLast?.getD s.rootName := by
    have := hp.plain
    rw [Node.PlainPath_concat] at this
    exact this.2
  have hown : AList.get? attrs x ≠ some .own := by
    intro ha
    have hch : ∃ n, s.walk (q ++ [x]) = .ok n := by
      rcases hp.found with ⟨c', h⟩ | ⟨l, h⟩
      · exact ⟨_, h⟩
      · exact ⟨_, h⟩
    obtain ⟨n, hn⟩ := hch
    obtain ⟨res, hres⟩ := CMM.walk_last hn hq
    rw [Node.child_sect _ _ _ _ _ hx, ha] at hres
    split at hres
    · cases hres
      rcases hp.found with ⟨c', h⟩ | ⟨l, h⟩ <;> rw [h] at hn <;> cases hn
    · cases hres
  unfold CMM.attrValue
  split
  · rename_i h
    cases h
    split
    · rename_i h; exact absurd h hown
    · rfl
    · rw [if_neg hx]
  · rfl

/-- A reset with creation of an item that has a config. -/
theorem reset_existing_run [BEq V] (s : CM V) (p : List String) (hp : ConfigItem s p) (v : Dict String V)
    (hv : FileGives s p v) (c : Conf V) (hc : ownConfig s p = .ok c) :
    CMM.reset (some p) true s = (M.liftE (CMM.determineWouldUpdate c none (Conf.ofFile (.item p) v).values) >>=
      fun would => if would then (CMM.setFuncOrSectionConfig p (.conf (Conf.ofFile (.item p) v)) true >>=
          fun _ => pure (.conf (Conf.ofFile (.item p) v), true))
        else pure (.conf (Conf.ofFile (.item p) v), false)) (CMM.storeLoaded p c s).2 := by
  have hd : CMM.getDefault s p true = .ok (.conf (Conf.ofFile (.item p) v)) := by
    unfold CMM.getDefault CMM.defaultKind
    have hl : (s.fs.load (.item p)).map Node.conf = .ok (.conf (Conf.ofFile (.item p) v)) := by
      unfold Files.load
      rw [show s.fs.read (.item p) = _ from hv]
      rfl
    rcases hp.found with ⟨c', h⟩ | ⟨l, h⟩ <;> rw [h] <;> exact hl
  show (M.get >>= fun s => M.liftE (CMM.getDefault s p true) >>= fun value => CMM.set p value true) s = _
  rw [M.bind_ok (M.get_run s), M.bind_run, M.liftE_run, hd]
  simp only
  unfold CMM.set
  have hcur : M.tryCatch (CMM.getFuncOrSectionConfigs p)
      (fun e => if e = .keyError then pure none else M.raise e) s = (.ok (some c), (CMM.storeLoaded p c s).2) := by
    unfold M.tryCatch
    rw [getFunc_item hp hc]
  rw [M.bind_ok hcur]

/-- C78 fails for every item that has a config: the values of the file are returned as the new config, but the item keeps the config
it has, with all updates; nothing is changed, except that the config is loaded. -/
theorem C78_existing_violated [BEq V] (s : CM V) (p : List String) (hp : ConfigItem s p) (v : Dict String V)
    (hv : FileGives s p v) (c : Conf V) (hc : ownConfig s p = .ok c) (hres : Conf.clash CMM.determineReserved v = false) :
    (CMM.reset (some p) true s).1 = .ok (.conf (Conf.ofFile (.item p) v), c.wouldUpdate (some v) Dict.empty) ∧
    (CMM.reset (some p) true s).2.walk p = .ok (.conf c) ∧
    (∀ q, q ≠ p → (CMM.reset (some p) true s).2.view.slot q = s.view.slot q) ∧
    (CMM.reset (some p) true s).2.rootName = s.rootName := by
  obtain ⟨_, hview⟩ := CMM.view_storeLoaded s hp.isItem c
  have hstored : (CMM.storeLoaded p c s).2.walk p = .ok (.conf c) ∧
      ∀ q, q ≠ p → (CMM.storeLoaded p c s).2.view.slot q = s.view.slot q := by
    rw [hview]
    refine ⟨CM.walk_of_slot_conf (by rw [hview, View.setConf_slot_self]), ?_⟩
    intro q hq
    exact View.setConf_slot_ne _ _ hq
  have hdet : CMM.determineWouldUpdate c none (Conf.ofFile (.item p) v).values =
      .ok (c.wouldUpdate (some v) Dict.empty) := by
    unfold CMM.determineWouldUpdate
    rw [show (Conf.ofFile (.item p) v).values = v from rfl, hres]
    simp
  have hrun := reset_existing_run s p hp v hv c hc
  rw [hrun, M.bind_run, M.liftE_run, hdet]
  simp only
  cases hb : c.wouldUpdate (some v) Dict.empty with
  | false =>
    simp only [Bool.false_eq_true, if_false]
    exact ⟨rfl, hstored.1, hstored.2, congrArg View.rootName hview⟩
  | true =>
    simp only [if_true]
    -- the section around the item has the config as an attribute
    have hw : ∃ n, s.walk p = .ok n := by
      rcases hp.found with ⟨c', h⟩ | ⟨l, h⟩
      · exact ⟨_, h⟩
      · exact ⟨_, h⟩
    obtain ⟨n, hn⟩ := hw
    obtain ⟨q, x, m, rfl, hm⟩ := walk_dropLast hp.ne hn
    obtain ⟨cfg, attrs, map, rfl⟩ : ∃ cfg attrs map, m = .sect cfg attrs map := by
      have hi := hp.isItem.prefix_sect (k := q.length) (by simp)
      obtain ⟨cfg, hi⟩ := hi
      rw [List.take_left] at hi
      obtain ⟨attrs, map, hw⟩ := CM.walk_of_slot_sect hi
      rw [hw] at hm
      cases hm
      exact ⟨_, _, _, rfl⟩
    have hs1 : (CMM.storeLoaded (q ++ [x]) c s).2.walk q = .ok (.sect cfg (AList.set attrs x (.conf c)) map) := by
      have hm' := Node.walk_modifyAt_below (f := fun parent => parent.setAttr x
        (CMM.attrValue parent (q.getLast?.getD s.rootName) x c)) (fun n h => setAttr_ne_own x _ n h) q [] hm
      rw [List.append_nil] at hm'
      unfold CMM.storeLoaded
      simp only [List.dropLast_concat, List.getLast?_concat, Option.getD_some]
      show Node.walk managerReserved s.rootName (s.root.modifyAt managerReserved s.rootName q _) q = _
      rw [hm']
      simp only [Node.walk, Node.setAttr]
      rw [attrValue_plain hp c hm]
    obtain ⟨n', h1, h2⟩ := CMM.awc_hidden (v := .conf (Conf.ofFile (.item (q ++ [x])) v)) (x := x) q hs1
      (AList.get?_set_at _ _ _)
    have hset : CMM.setFuncOrSectionConfig (q ++ [x]) (.conf (Conf.ofFile (.item (q ++ [x])) v)) true
        (CMM.storeLoaded (q ++ [x]) c s).2 = (.ok (), { (CMM.storeLoaded (q ++ [x]) c s).2 with root := n' }) := by
      unfold CMM.setFuncOrSectionConfig
      simp only [if_true, h1]
    rw [M.bind_ok hset]
    refine ⟨rfl, ?_, ?_, congrArg View.rootName hview⟩
    · apply CM.walk_of_slot_conf
      refine (h2 _).trans ?_
      show Node.slotOf ((CMM.storeLoaded (q ++ [x]) c s).2.walk (q ++ [x])) = _
      rw [hstored.1]
      rfl
    · intro r hr
      exact (h2 r).trans (hstored.2 r hr)

/-- C78 fails for names that every section has as an attribute: the config is stored and cannot be found. -/
theorem C78_reserved_violated :
    (CMM.reset (some ["new", "items"]) true { bare with fs := ⟨fun _ => .ok (Dict.ofList [("a", 3)]), bareFiles.tree⟩ }).1.isOk = true ∧
    Node.slotOf ((CMM.reset (some ["new", "items"]) true
      { bare with fs := ⟨fun _ => .ok (Dict.ofList [("a", 3)]), bareFiles.tree⟩ }).2.walk ["new", "items"]) = .absent :=
  ⟨rfl, rfl⟩

/-- The hypotheses of `C78_new_partial`: a new file in a new section. -/
example : let s : CM Nat := bare.step (.edit ⟨fun _ => .ok (Dict.ofList [("a", 3)]), bareFiles.tree⟩)
    s.Reachable ∧ (∃ cfg attrs map, s.walk ["main"] = .ok (.sect cfg attrs map)) ∧
    s.walk (["main"] ++ ["new"]) = .error .keyError ∧ NotReserved sectionReserved ["func"] ∧
    FileGives s (["main"] ++ "new" :: ["func"]) (Dict.ofList [("a", 3)]) :=
  ⟨⟨bareFiles, "defaults", bare, [.edit _], bare_load, by simp [CMOp.Valid], rfl⟩, ⟨_, _, _, rfl⟩, rfl, by decide, rfl⟩

/-- The hypotheses of `C78_existing_violated`, with an update that is not undone. -/
example : ConfigItem bareUpdated ["main", "sub", "func"] ∧ FileGives bareUpdated ["main", "sub", "func"] (Dict.ofList [("a", 0)]) ∧
    (∃ c, ownConfig bareUpdated ["main", "sub", "func"] = .ok c ∧ c.values.get? "a" = some 7) ∧
    Conf.clash CMM.determineReserved (Dict.ofList [("a", 0)]) = false :=
  ⟨⟨by simp, by decide, .inl ⟨_, rfl⟩⟩, rfl, ⟨_, rfl, rfl⟩, rfl⟩

/-- C78 fails for the object of an item that has a config: the object takes the values of the file, the config keeps the updates. -/
theorem C78_object_violated :
    (let s := ((bareRunner.step (.get ["main", "sub", "func"])).step
        (.update none (some ["main", "sub", "func"]) true (Dict.ofList [("a", 7)]))).step (.reset (some ["main", "sub", "func"]) true)
    gotBound "a" (RM.get ["main", "sub", "func"] s).1 = some 0 ∧
    (match (CMM.get ["main", "sub", "func"] s.cm).1 with
      | .ok (some c) => c.values.get? "a"
      | _ => none) = some 7) := by
  decide +kernel

end Verif.Props
