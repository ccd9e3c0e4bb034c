import Verif.Model.Runner
import Verif.Lemmas.Frame

/-
What every operation of the runner keeps.
-/

namespace Verif.Model
open Verif.Py
variable {V : Type}

/-- The same object, perhaps with other keyword values; a partial keeps its keyword names. -/
structure SameObj (o o' : Obj V) : Prop where
  id : o'.id = o.id
  isPartial : o'.isPartial = o.isPartial
  callable : o'.callable = o.callable
  keys : o.isPartial = true → o'.kwargs.keys = o.kwargs.keys

theorem SameObj.refl (o : Obj V) : SameObj o o := ⟨rfl, rfl, rfl, fun _ => rfl⟩
theorem SameObj.trans {a b c : Obj V} (h1 : SameObj a b) (h2 : SameObj b c) : SameObj a c :=
  ⟨h2.id.trans h1.id, h2.isPartial.trans h1.isPartial, h2.callable.trans h1.callable,
    fun h => (h2.keys (h1.isPartial.trans h)).trans (h1.keys h)⟩

/-- The keyword names of the object are parameters of what it was created from. -/
def Obj.NamesOK (o : Obj V) : Prop := ∀ x ∈ o.kwargs.keys, x ∈ o.callable.sig.args ++ o.callable.sig.kwonly

/-- Invariant of a runner: created objects are numbered without gaps, have different numbers,
come from the registered item, and have parameters as keyword names. -/
structure RS.Inv (s : RS V) : Prop where
  fresh : ∀ p o, s.objs.get? p = some o → o.id < s.nextId
  inj : ∀ p q o o', s.objs.get? p = some o → s.objs.get? q = some o' → o.id = o'.id → p = q
  count : s.nextId = s.objs.items.length
  names : ∀ p o, s.objs.get? p = some o → o.NamesOK
  reg : ∀ p o, s.objs.get? p = some o → s.reg.lookup p = .ok (.item o.callable)

/-- What happens to a runner during any of its operations. -/
structure RS.Evolves [BEq V] (s t : RS V) : Prop where
  reg : t.reg = s.reg
  cm : ∃ ops : List (CMOp V), (∀ op ∈ ops, op.Valid) ∧ t.cm = ops.foldl CM.step s.cm
  objs : ∀ p o, s.objs.get? p = some o → ∃ o', t.objs.get? p = some o' ∧ SameObj o o'
  inv : s.Inv → t.Inv

namespace RS.Evolves
variable [BEq V]

theorem refl (s : RS V) : RS.Evolves s s :=
  ⟨rfl, ⟨[], by simp, rfl⟩, fun _ o h => ⟨o, h, .refl o⟩, id⟩

theorem trans (a b c : RS V) (h1 : RS.Evolves a b) (h2 : RS.Evolves b c) : RS.Evolves a c := by
  refine ⟨h2.reg.trans h1.reg, ?_, ?_, fun h => h2.inv (h1.inv h)⟩
  · obtain ⟨o1, v1, e1⟩ := h1.cm
    obtain ⟨o2, v2, e2⟩ := h2.cm
    refine ⟨o1 ++ o2, ?_, by rw [List.foldl_append, ← e1, e2]⟩
    intro op hop
    rcases List.mem_append.1 hop with h | h
    · exact v1 op h
    · exact v2 op h
  · intro p o h
    obtain ⟨o', h', s1⟩ := h1.objs p o h
    obtain ⟨o'', h'', s2⟩ := h2.objs p o' h'
    exact ⟨o'', h'', s1.trans s2⟩

/-- Only the config manager changes, by one of its operations. -/
theorem ofCM (s : RS V) (op : CMOp V) (hv : op.Valid) : RS.Evolves s { s with cm := s.cm.step op } :=
  ⟨rfl, ⟨[op], by simpa using hv, rfl⟩, fun _ o h => ⟨o, h, .refl o⟩,
    fun h => ⟨h.fresh, h.inj, h.count, h.names, h.reg⟩⟩

end RS.Evolves

/-- Every run of `m` lets the runner evolve. -/
abbrev Evo [BEq V] {α : Type} (m : RM V α) : Prop := M.Keeps RS.Evolves m

namespace RM
variable [BEq V] {α β : Type}

theorem evo_pure (a : α) : Evo (V := V) (pure a) := .pure RS.Evolves.refl a
theorem evo_raise (e : PyErr) : Evo (V := V) (α := α) (M.raise e) := .raise RS.Evolves.refl e
theorem evo_get : Evo (V := V) M.get := .get RS.Evolves.refl
theorem evo_liftE (x : Except PyErr α) : Evo (V := V) (M.liftE x) := .liftE RS.Evolves.refl x
theorem evo_bind {m : RM V α} {f : α → RM V β} (hm : Evo m) (hf : ∀ a, Evo (f a)) : Evo (m >>= f) :=
  .bind RS.Evolves.trans hm hf

theorem evo_liftC_get {p : List String} (hp : p ≠ []) : Evo (liftC (CMM.get (V := V) p)) :=
  fun s => RS.Evolves.ofCM s (.get p) hp

theorem evo_liftC_update (d : Option (Dict String V)) {p : Option (List String)} (hp : p ≠ some [])
    (persist) (kw) : Evo (liftC (CMM.update d p persist kw)) :=
  fun s => RS.Evolves.ofCM s (.update d p persist kw) (by
    cases p with
    | none => trivial
    | some p => simpa [CMOp.Valid] using hp)

theorem evo_liftC_reset {p : Option (List String)} (hp : p ≠ some []) (b : Bool) :
    Evo (liftC (CMM.reset (V := V) p b)) :=
  fun s => RS.Evolves.ofCM s (.reset p b) (by
    cases p with
    | none => trivial
    | some p => simpa [CMOp.Valid] using hp)

theorem evo_liftC_refresh {p : List String} (hp : p ≠ []) : Evo (liftC (CMM.refresh (V := V) p)) :=
  fun s => RS.Evolves.ofCM s (.refresh p) hp

theorem evo_lookup (p : List String) : Evo (lookup (V := V) p) := by
  unfold lookup
  exact evo_bind evo_get (fun s => evo_liftE _)

theorem evo_getConfig {p : List String} (hp : p ≠ []) : Evo (getConfig (V := V) p) := by
  unfold getConfig
  refine evo_bind (evo_liftC_get hp) (fun r => ?_)
  cases r with
  | none => exact evo_raise _
  | some c => exact evo_pure _

theorem evo_funcAndConfig {p : List String} (hp : p ≠ []) : Evo (funcAndConfig (V := V) p) := by
  unfold funcAndConfig
  exact evo_bind (evo_getConfig hp) (fun _ => evo_bind (evo_lookup p) (fun _ =>
    evo_bind (evo_liftE _) (fun _ => evo_pure _)))

theorem argNames_mem {sig : Sig} {b : Bool} {names : List String} (h : sig.argNames b = .ok names) :
    ∀ x ∈ names, x ∈ sig.args ++ sig.kwonly := by
  have hk : ∀ x ∈ Sig.argNames.kwonlyNames sig, x ∈ sig.kwonly := by
    intro x hx
    unfold Sig.argNames.kwonlyNames at hx
    split at hx
    · simp at hx
    · exact hx
  intro x hx
  unfold Sig.argNames at h
  cases b with
  | true =>
    cases ha : sig.args with
    | nil => rw [ha] at h; simp at h
    | cons a as =>
      rw [ha] at h
      simp only [Except.ok.injEq] at h
      subst h
      rcases List.mem_append.1 hx with hx | hx
      · exact List.mem_append_left _ (List.mem_cons_of_mem _ hx)
      · exact List.mem_append_right _ (hk x hx)
  | false =>
    simp only [Except.ok.injEq] at h
    subst h
    rcases List.mem_append.1 hx with hx | hx
    · exact List.mem_append_left _ hx
    · exact List.mem_append_right _ (hk x hx)

omit [BEq V] in
/-- What `funcAndConfig` returns: what is registered, and the accepted part of the config. -/
theorem funcAndConfig_ok {p : List String} {s s' : RS V} {r : Reg V × Dict String V}
    (h : funcAndConfig p s = (.ok r, s')) :
    ∃ c, CMM.get p s.cm = (.ok (some c), s'.cm) ∧ s' = { s with cm := s'.cm } ∧
      s.reg.lookup p = .ok r.1 ∧ forFunction c r.1 = .ok r.2 := by
  unfold funcAndConfig getConfig at h
  rw [M.bind_run, M.bind_run] at h
  unfold liftC at h
  cases hg : CMM.get p s.cm with
  | mk g cm' =>
    rw [hg] at h
    cases g with
    | error e => cases h
    | ok g =>
      cases g with
      | none => cases h
      | some c =>
        simp only [M.pure_run] at h
        unfold lookup at h
        rw [M.bind_run, M.bind_ok (M.get_run _)] at h
        simp only [M.liftE_run] at h
        cases hl : s.reg.lookup p with
        | error e => rw [hl] at h; cases h
        | ok reg =>
          rw [hl] at h
          simp only at h
          rw [M.bind_run, M.liftE_run] at h
          cases hf : forFunction c reg with
          | error e => rw [hf] at h; cases h
          | ok d =>
            rw [hf] at h
            cases h
            exact ⟨c, by simp, rfl, by simp, hf⟩

omit [BEq V] in
theorem forFunction_names {c : Conf V} {k : Callable V} {d : Dict String V}
    (h : forFunction c (.item k) = .ok d) : ∀ x ∈ d.keys, x ∈ k.sig.args ++ k.sig.kwonly := by
  unfold forFunction at h
  simp only at h
  cases hn : k.sig.argNames false with
  | error e => rw [hn] at h; cases h
  | ok names =>
    rw [hn] at h
    cases h
    intro x hx
    rw [Dict.keys_filterKeys, List.mem_filter] at hx
    exact argNames_mem hn x (by simpa using hx.2)

omit [BEq V] in
theorem applyConfig_same {o o' : Obj V} {d : Dict String V} (h : applyConfig o d = .ok o') :
    SameObj o o' ∧ (o.NamesOK → o'.NamesOK) := by
  unfold applyConfig at h
  cases hp : o.isPartial with
  | true =>
    rw [hp] at h
    simp only [Except.ok.injEq] at h
    have hkeys : (o.kwargs.setAll (d.items.filter (fun e => o.kwargs.contains e.1))).keys = o.kwargs.keys := by
      have : ∀ (es : List (String × V)) (k : Dict String V), (∀ e ∈ es, e.1 ∈ k.keys) →
          (k.setAll es).keys = k.keys := by
        intro es
        induction es with
        | nil => intro k _; rfl
        | cons e es ih =>
          intro k hk
          show ((k.set e.1 e.2).setAll es).keys = _
          have h1 : (k.set e.1 e.2).keys = k.keys := by
            rw [Dict.keys_set, if_pos (hk e List.mem_cons_self)]
          rw [ih _ (by intro e' he'; rw [h1]; exact hk e' (List.mem_cons_of_mem _ he')), h1]
      apply this
      intro e he
      rw [List.mem_filter] at he
      exact (Dict.contains_iff _ _).1 he.2
    subst h
    refine ⟨⟨rfl, hp.symm ▸ rfl, rfl, fun _ => hkeys⟩, ?_⟩
    intro hn x hx
    exact hn x (hkeys ▸ hx)
  | false =>
    rw [hp] at h
    simp only at h
    cases hn : o.callable.sig.argNames true with
    | error e => rw [hn] at h; cases h
    | ok names =>
      rw [hn] at h
      simp only at h
      cases hu : o.callable.upd (d.filterKeys (fun x => decide (x ∈ names))) with
      | error e => rw [hu] at h; cases h
      | ok u =>
        rw [hu] at h
        cases h
        refine ⟨⟨rfl, hp.symm ▸ rfl, rfl, fun h => by rw [hp] at h; cases h⟩, ?_⟩
        intro _ x hx
        rw [Dict.keys_filterKeys, List.mem_filter] at hx
        exact argNames_mem hn x (by simpa using hx.2)

omit [BEq V] in
theorem construct_ok {id : Nat} {k : Callable V} {d : Dict String V} {o : Obj V}
    (h : construct id k d = .ok o) (hd : ∀ x ∈ d.keys, x ∈ k.sig.args ++ k.sig.kwonly) :
    o.id = id ∧ o.callable = k ∧ o.NamesOK := by
  have key : ∀ (o : Obj V), (if d.contains (k.sig.args.headD "self") then .error .typeError
      else match k.init d with
        | .error e => .error e
        | .ok () => .ok ⟨id, false, k, d⟩ : Except PyErr (Obj V)) = .ok o → o.id = id ∧ o.callable = k ∧ o.NamesOK := by
    intro o h
    split at h
    · cases h
    · split at h
      · cases h
      · cases h; exact ⟨rfl, rfl, hd⟩
  unfold construct at h
  cases hk : k.kind with
  | func => rw [hk] at h; exact key o h
  | klass => rw [hk] at h; exact key o h
  | specific =>
    rw [hk] at h
    obtain ⟨h1, h2⟩ := applyConfig_same h
    refine ⟨h1.id, h1.callable, h2 ?_⟩
    intro x hx
    simp [Dict.keys, Dict.empty] at hx

/-- Storing a newly created object. -/
theorem store_evolves {s : RS V} {p : List String} {o : Obj V} (hnone : s.objs.get? p = none)
    (hid : o.id = s.nextId) (hn : o.NamesOK) (hreg : s.reg.lookup p = .ok (.item o.callable)) :
    RS.Evolves s (store p o s).2 := by
  have hget : ∀ q, (s.objs.set p o).get? q = if p = q then some o else s.objs.get? q :=
    fun q => Dict.get?_set _ _ _ _
  refine ⟨rfl, ⟨[], by simp, rfl⟩, ?_, ?_⟩
  · intro q o' h
    refine ⟨o', ?_, .refl _⟩
    show (s.objs.set p o).get? q = _
    rw [hget, if_neg, h]
    intro hpq; subst hpq; rw [hnone] at h; cases h
  · intro hi
    refine ⟨?_, ?_, ?_, ?_, ?_⟩
    · intro q o' h
      rw [show (store p o s).2.objs = s.objs.set p o from rfl, hget] at h
      show o'.id < s.nextId + 1
      split at h
      · cases h; omega
      · have := hi.fresh q o' h; omega
    · intro q r o1 o2 h1 h2 h12
      rw [show (store p o s).2.objs = s.objs.set p o from rfl, hget] at h1 h2
      split at h1 <;> split at h2
      · rename_i a b; exact a.symm.trans b
      · cases h1
        have := hi.fresh r o2 h2; omega
      · cases h2
        have := hi.fresh q o1 h1; omega
      · exact hi.inj q r o1 o2 h1 h2 h12
    · show s.nextId + 1 = (s.objs.set p o).items.length
      have : (s.objs.set p o).items = s.objs.items ++ [(p, o)] :=
        AList.set_fresh ((Dict.get?_eq_none_iff _ _).1 hnone)
      rw [this, List.length_append, hi.count]; rfl
    · intro q o' h
      rw [show (store p o s).2.objs = s.objs.set p o from rfl, hget] at h
      split at h
      · cases h; exact hn
      · exact hi.names q o' h
    · intro q o' h
      rw [show (store p o s).2.objs = s.objs.set p o from rfl, hget] at h
      show s.reg.lookup q = _
      split at h
      · rename_i hpq; cases h; rw [← hpq]; exact hreg
      · exact hi.reg q o' h

/-- Replacing an object by the same object with other keyword values. -/
theorem replace_evolves {s : RS V} {p : List String} {o o' : Obj V} (hs : s.objs.get? p = some o)
    (h : SameObj o o') (hn : o.NamesOK → o'.NamesOK) :
    RS.Evolves s { s with objs := s.objs.set p o' } := by
  have hget : ∀ q, (s.objs.set p o').get? q = if p = q then some o' else s.objs.get? q :=
    fun q => Dict.get?_set _ _ _ _
  have back : ∀ q x, (s.objs.set p o').get? q = some x →
      ∃ y, s.objs.get? q = some y ∧ SameObj y x ∧ (y.NamesOK → x.NamesOK) := by
    intro q x hx
    rw [hget] at hx
    split at hx
    · rename_i hpq; cases hx; rw [← hpq]; exact ⟨o, hs, h, hn⟩
    · exact ⟨x, hx, .refl x, id⟩
  refine ⟨rfl, ⟨[], by simp, rfl⟩, ?_, ?_⟩
  · intro q x hx
    show ∃ y, (s.objs.set p o').get? q = some y ∧ _
    rw [hget]
    split
    · rename_i hpq
      subst hpq
      rw [hs] at hx; cases hx
      exact ⟨o', rfl, h⟩
    · exact ⟨x, hx, .refl x⟩
  · intro hi
    refine ⟨?_, ?_, ?_, ?_, ?_⟩
    · intro q x hx
      obtain ⟨y, hy, hsame, _⟩ := back q x hx
      rw [hsame.id]; exact hi.fresh q y hy
    · intro q r x1 x2 h1 h2 h12
      obtain ⟨y1, hy1, s1, _⟩ := back q x1 h1
      obtain ⟨y2, hy2, s2, _⟩ := back r x2 h2
      exact hi.inj q r y1 y2 hy1 hy2 (by rw [← s1.id, ← s2.id]; exact h12)
    · show s.nextId = (s.objs.set p o').items.length
      have hk : (s.objs.set p o').keys = s.objs.keys := by
        rw [Dict.keys_set, if_pos (Dict.mem_keys_of_get? hs)]
      have := congrArg List.length hk
      simp only [Dict.keys, List.length_map] at this
      rw [this]; exact hi.count
    · intro q x hx
      obtain ⟨y, hy, _, hnn⟩ := back q x hx
      exact hnn (hi.names q y hy)
    · intro q x hx
      obtain ⟨y, hy, hsame, _⟩ := back q x hx
      rw [hsame.callable]; exact hi.reg q y hy

theorem evo_getOneFunc {p : List String} (hp : p ≠ []) : Evo (getOneFunc (V := V) p) := by
  intro s
  unfold getOneFunc
  rw [M.bind_ok (M.get_run s)]
  cases ho : s.objs.get? p with
  | some o => exact RS.Evolves.refl s
  | none =>
    simp only
    have he := evo_funcAndConfig (V := V) hp s
    rw [M.bind_run]
    cases hf : funcAndConfig p s with
    | mk r s' =>
      rw [hf] at he
      cases r with
      | error e => exact he
      | ok r =>
        obtain ⟨reg, d⟩ := r
        obtain ⟨c, _, hs', hl, hd⟩ := funcAndConfig_ok hf
        cases reg with
        | item k =>
          simp only
          rw [M.bind_ok (M.get_run s')]
          refine RS.Evolves.trans _ _ _ he ?_
          show RS.Evolves s' (store p ⟨s'.nextId, true, k, d⟩ s').2
          refine store_evolves ?_ rfl (forFunction_names hd) ?_
          · rw [hs']; exact ho
          · rw [he.reg]; exact hl
        | coll _ _ => exact he
        | other => exact he

theorem evo_getOneObj {p : List String} (hp : p ≠ []) : Evo (getOneObj (V := V) p) := by
  intro s
  unfold getOneObj
  rw [M.bind_ok (M.get_run s)]
  cases ho : s.objs.get? p with
  | some o => exact RS.Evolves.refl s
  | none =>
    simp only
    rw [M.bind_run]
    have hlk : lookup p s = (s.reg.lookup p, s) := rfl
    rw [hlk]
    cases s.reg.lookup p with
    | error e => exact RS.Evolves.refl s
    | ok reg0 =>
      simp only
      have he := evo_funcAndConfig (V := V) hp s
      rw [M.bind_run]
      cases hf : funcAndConfig p s with
      | mk r s' =>
        rw [hf] at he
        cases r with
        | error e => exact he
        | ok r =>
          obtain ⟨reg, d⟩ := r
          obtain ⟨c, _, hs', hl, hd⟩ := funcAndConfig_ok hf
          cases reg with
          | item k =>
            simp only
            rw [M.bind_ok (M.get_run s'), M.bind_run, M.liftE_run]
            cases hc : construct s'.nextId k d with
            | error e => exact he
            | ok o =>
              obtain ⟨h1, h2, h3⟩ := construct_ok hc (forFunction_names hd)
              refine RS.Evolves.trans _ _ _ he ?_
              show RS.Evolves s' (store p o s').2
              refine store_evolves ?_ h1 h3 ?_
              · rw [hs']; exact ho
              · rw [he.reg, h2]; exact hl
          | coll _ _ => exact he
          | other => exact he

theorem evo_runOneFunc {p : List String} (hp : p ≠ []) : Evo (runOneFunc (V := V) p) := by
  unfold runOneFunc
  exact evo_bind (evo_funcAndConfig hp) (fun _ => evo_bind (evo_getOneFunc hp) (fun _ => evo_liftE _))

theorem evo_runOneObj {p : List String} (hp : p ≠ []) : Evo (runOneObj (V := V) p) := by
  unfold runOneObj
  exact evo_bind (evo_funcAndConfig hp) (fun _ => evo_bind (evo_getOneObj hp) (fun _ => evo_liftE _))

theorem evo_runInside {p : List String} (hp : p ≠ []) (x : String) (k : Callable V) :
    Evo (runInside p x k) := by
  unfold runInside
  cases k.kind
  · exact evo_runOneFunc (by simp)
  · exact evo_runOneObj hp
  · exact evo_runOneObj hp

theorem evo_runItems {f : List String → RM V (RunRes V)} (hf : ∀ q, q ≠ [] → Evo (f q)) {p : List String}
    (hp : p ≠ []) (items : List (String × Reg V)) : Evo (runItems f p items) := by
  induction items with
  | nil => exact evo_pure _
  | cons e rest ih =>
    obtain ⟨x, r⟩ := e
    cases r with
    | item k =>
      exact evo_bind (evo_runInside hp x k) (fun _ => evo_bind ih (fun _ => evo_pure _))
    | coll b items =>
      cases b
      · exact evo_bind (hf _ (by simp)) (fun _ => evo_bind ih (fun _ => evo_pure _))
      · exact evo_raise _
    | other => exact evo_raise _

theorem evo_runSection (n : Nat) : ∀ {p : List String}, p ≠ [] → Evo (runSection (V := V) n p) := by
  induction n with
  | zero => intro p _; exact evo_raise _
  | succ n ih =>
    intro p hp
    unfold runSection
    refine evo_bind (evo_lookup p) (fun r => ?_)
    cases r with
    | coll b items => exact evo_bind (evo_runItems (fun q hq => ih hq) hp items) (fun _ => evo_pure _)
    | item k => exact evo_raise _
    | other => exact evo_raise _

theorem evo_run1 {p : List String} (hp : p ≠ []) : Evo (run1 (V := V) p) := by
  unfold run1
  refine evo_bind evo_get (fun s => evo_bind (evo_lookup p) (fun r => ?_))
  cases r with
  | coll b items =>
    cases b
    · exact evo_runSection _ hp
    · exact evo_raise _
  | item k =>
    refine evo_bind ?_ (fun _ => evo_pure _)
    unfold runItem
    cases k.kind
    · exact evo_runOneFunc hp
    · exact evo_runOneObj hp
    · exact evo_runOneObj hp
  | other => exact evo_raise _

theorem evo_getItems {p : List String} (items : List (String × Reg V)) : Evo (getItems p items) := by
  induction items with
  | nil => exact evo_pure _
  | cons e rest ih =>
    obtain ⟨x, r⟩ := e
    cases r with
    | item k =>
      refine evo_bind ?_ (fun _ => evo_bind ih (fun _ => evo_pure _))
      unfold getInside
      cases k.kind
      · exact evo_getOneFunc (by simp)
      · exact evo_getOneFunc (by simp)
      · exact evo_getOneObj (by simp)
    | coll b items => exact evo_raise _
    | other => exact evo_raise _

theorem evo_getSubs {f : List String → RM V (GetRes V)} (hf : ∀ q, q ≠ [] → Evo (f q)) {p : List String}
    (items : List (String × Reg V)) : ∀ acc, Evo (getSubs f p acc items) := by
  induction items with
  | nil => intro acc; exact evo_pure _
  | cons e rest ih =>
    intro acc
    obtain ⟨x, r⟩ := e
    cases r with
    | item k => exact evo_raise _
    | coll b items => exact evo_bind (hf _ (by simp)) (fun _ => ih _)
    | other => exact evo_raise _

theorem evo_getSection (n : Nat) : ∀ {p : List String}, p ≠ [] → Evo (getSection (V := V) n p) := by
  induction n with
  | zero => intro p _; exact evo_raise _
  | succ n ih =>
    intro p hp
    unfold getSection
    refine evo_bind (evo_lookup p) (fun r => ?_)
    cases r with
    | coll b items =>
      simp only
      split
      · exact evo_bind (evo_getSubs (fun q hq => ih hq) items []) (fun _ => evo_pure _)
      · exact evo_bind (evo_getItems items) (fun _ => evo_pure _)
    | item k => exact evo_raise _
    | other => exact evo_raise _

theorem evo_getItem {p : List String} (hp : p ≠ []) (k : Callable V) : Evo (getItem p k) := by
  unfold getItem
  cases k.kind
  · exact evo_getOneFunc hp
  · exact evo_getOneObj hp
  · exact evo_getOneObj hp

theorem evo_get' {p : List String} (hp : p ≠ []) : Evo (get (V := V) p) := by
  unfold get
  refine evo_bind evo_get (fun s => evo_bind (evo_lookup p) (fun r => ?_))
  cases r with
  | coll b items => exact evo_getSection _ hp
  | item k => exact evo_bind (evo_getItem hp k) (fun _ => evo_pure _)
  | other => exact evo_raise _

theorem evo_applyToLoaded (p : List String) (config announced : Dict String V) :
    Evo (applyToLoaded p config announced) := by
  intro s
  unfold applyToLoaded
  rw [M.bind_ok (M.get_run s)]
  cases ho : s.objs.get? p with
  | none => exact RS.Evolves.refl s
  | some o =>
    simp only
    rw [M.bind_run, M.liftE_run]
    cases ha : applyConfig o config with
    | error e => exact RS.Evolves.refl s
    | ok o' =>
      simp only
      rw [M.bind_ok (M.modify_run _ _)]
      obtain ⟨h1, h2⟩ := applyConfig_same ha
      have := replace_evolves (s := s) ho h1 h2
      split
      · exact this
      · exact this

theorem evo_update (d : Option (Dict String V)) {p : Option (List String)} (hp : p ≠ some [])
    (persist) (kw) : Evo (update d p persist kw) := by
  unfold update
  refine evo_bind (evo_liftC_update d hp persist kw) (fun r => ?_)
  obtain ⟨c, u⟩ := r
  cases u with
  | false => exact evo_pure _
  | true => cases p with
    | none => exact evo_pure _
    | some p => exact evo_applyToLoaded _ _ _

theorem evo_reset {p : Option (List String)} (hp : p ≠ some []) (b : Bool) :
    Evo (reset (V := V) p b) := by
  unfold reset
  refine evo_bind (evo_liftC_reset hp b) (fun r => ?_)
  obtain ⟨n, u⟩ := r
  cases u with
  | false => exact evo_pure _
  | true => cases p with
    | none => exact evo_pure _
    | some p => cases n with
      | conf c => exact evo_applyToLoaded _ _ _
      | _ => exact evo_pure _

theorem evo_refresh {p : List String} (hp : p ≠ []) : Evo (refresh (V := V) p) := by
  unfold refresh
  refine evo_bind (evo_liftC_refresh hp) (fun r => ?_)
  obtain ⟨c, u, us⟩ := r
  refine evo_bind evo_get (fun s => ?_)
  split
  · exact evo_bind (evo_getConfig hp) (fun _ => evo_applyToLoaded _ _ _)
  · exact evo_pure _

end RM

theorem RS.step_evolves [BEq V] (s : RS V) {op : ROp V} (hv : op.Valid) : RS.Evolves s (s.step op) := by
  cases op with
  | get p => exact RM.evo_get' hv s
  | run p => exact RM.evo_run1 hv s
  | update d p persist kw =>
    refine RM.evo_update d ?_ persist kw s
    cases p with
    | none => simp
    | some p => simpa [ROp.Valid] using hv
  | reset p b =>
    refine RM.evo_reset ?_ b s
    cases p with
    | none => simp
    | some p => simpa [ROp.Valid] using hv
  | refresh p => exact RM.evo_refresh hv s
  | edit fs => exact RS.Evolves.ofCM s (.edit fs) trivial

theorem RS.steps_evolve [BEq V] (ops : List (ROp V)) (hv : ∀ op ∈ ops, op.Valid) :
    ∀ s : RS V, RS.Evolves s (ops.foldl RS.step s) := by
  induction ops with
  | nil => intro s; exact .refl s
  | cons op ops ih =>
    intro s
    exact .trans _ _ _ (RS.step_evolves s (hv op List.mem_cons_self))
      (ih (fun o ho => hv o (List.mem_cons_of_mem _ ho)) _)

theorem RS.Fresh.inv {s : RS V} (h : s.Fresh) : s.Inv := by
  obtain ⟨h1, h2, _⟩ := h
  have : ∀ p o, s.objs.get? p = some o → False := by
    intro p o ho; rw [h1] at ho; cases ho
  exact ⟨fun p o h => (this p o h).elim, fun p _ o _ h => (this p o h).elim, by rw [h1, h2]; rfl,
    fun p o h => (this p o h).elim, fun p o h => (this p o h).elim⟩

theorem RS.Reachable.inv [BEq V] {s : RS V} (h : s.Reachable) : s.Inv := by
  obtain ⟨s0, ops, h0, hv, rfl⟩ := h
  exact (RS.steps_evolve ops hv s0).inv h0.inv

theorem RS.Reachable.cm [BEq V] {s : RS V} (h : s.Reachable) : s.cm.Reachable := by
  obtain ⟨s0, ops, h0, hv, rfl⟩ := h
  obtain ⟨_, _, fs, rootName, hl⟩ := h0
  obtain ⟨cops, hcv, hc⟩ := (RS.steps_evolve ops hv s0).cm
  exact ⟨fs, rootName, s0.cm, cops, hl, hcv, hc⟩

end Verif.Model
