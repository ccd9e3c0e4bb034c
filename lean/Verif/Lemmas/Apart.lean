import Verif.Lemmas.RunnerItem

/-
Operations on one item in two states that agree on that item: they have the same results and
leave states that agree on it again.
-/

namespace Verif.Model
open Verif.Py

/-! ### Two runs side by side -/

/-- The same exception, or values that correspond. -/
inductive SameRes {ε α β : Type} (R : α → β → Prop) : Except ε α → Except ε β → Prop
  | ok {a b} : R a b → SameRes R (.ok a) (.ok b)
  | error (e) : SameRes R (.error e) (.error e)

/-- `m` and `n` from states in the relation `A`: results that correspond and states in the relation again. -/
def Sim {ε σ α β : Type} (A : σ → σ → Prop) (R : α → β → Prop) (m : M ε σ α) (n : M ε σ β) : Prop :=
  ∀ s t, A s t → SameRes R (m s).1 (n t).1 ∧ A (m s).2 (n t).2

namespace Sim
variable {ε σ α β γ δ : Type} {A : σ → σ → Prop} {R : α → β → Prop} {S : γ → δ → Prop}

theorem pure {a : α} {b : β} (h : R a b) : Sim (ε := ε) A R (Pure.pure a) (Pure.pure b) := fun _ _ hA => ⟨.ok h, hA⟩

theorem raise (e : ε) : Sim A R (M.raise e) (M.raise e) := fun _ _ hA => ⟨.error e, hA⟩

theorem liftE {x : Except ε α} {y : Except ε β} (h : SameRes R x y) : Sim A R (M.liftE x) (M.liftE y) :=
  fun _ _ hA => ⟨h, hA⟩

theorem get : Sim (ε := ε) A A M.get M.get := fun _ _ hA => ⟨.ok hA, hA⟩

theorem modify {f g : σ → σ} (h : ∀ s t, A s t → A (f s) (g t)) :
    Sim (ε := ε) A (fun _ _ => True) (M.modify f) (M.modify g) := fun s t hA => ⟨.ok trivial, h s t hA⟩

theorem bind {m : M ε σ α} {n : M ε σ β} {f : α → M ε σ γ} {g : β → M ε σ δ} (hm : Sim A R m n)
    (hf : ∀ a b, R a b → Sim A S (f a) (g b)) : Sim A S (m >>= f) (n >>= g) := by
  intro s t hA
  obtain ⟨h1, h2⟩ := hm s t hA
  rw [M.bind_run, M.bind_run]
  cases hms : m s with
  | mk r s' =>
    cases hnt : n t with
    | mk r' t' =>
      rw [hms, hnt] at h1 h2
      cases h1 with
      | ok hab => exact hf _ _ hab s' t' h2
      | error e => exact ⟨.error e, h2⟩

theorem tryCatch {m : M ε σ α} {n : M ε σ β} {f : ε → M ε σ α} {g : ε → M ε σ β} (hm : Sim A R m n)
    (hf : ∀ e, Sim A R (f e) (g e)) : Sim A R (M.tryCatch m f) (M.tryCatch n g) := by
  intro s t hA
  obtain ⟨h1, h2⟩ := hm s t hA
  unfold M.tryCatch
  cases hms : m s with
  | mk r s' =>
    cases hnt : n t with
    | mk r' t' =>
      rw [hms, hnt] at h1 h2
      cases h1 with
      | ok hab => exact ⟨.ok hab, h2⟩
      | error e => exact hf e s' t' h2

end Sim

variable {V : Type}

/-! ### The config manager -/

/-- Views that agree on the item at `p`. -/
structure View.Alike (p : List String) (a b : View V) : Prop where
  fs : a.fs = b.fs
  rootName : a.rootName = b.rootName
  localConf : a.localConf = b.localConf
  slot : a.slot p = b.slot p
  sects : ∀ j, j < p.length → a.slot (p.take j) = b.slot (p.take j)

namespace View.Alike
variable {p : List String} {a b : View V}

theorem levels (h : a.Alike p b) : a.levels p = b.levels p := by
  unfold View.levels
  apply List.map_congr_left
  intro j hj
  unfold View.sectCfg
  rw [h.sects j (List.mem_range.1 hj)]

theorem take_ne {p : List String} {j : Nat} (hj : j < p.length) : p.take j ≠ p := by
  intro h
  have := congrArg List.length h
  rw [List.length_take] at this
  omega

theorem setConf (h : a.Alike p b) (c : Conf V) : (a.setConf p c).Alike p (b.setConf p c) where
  fs := h.fs
  rootName := h.rootName
  localConf := h.localConf
  slot := by rw [View.setConf_slot_self, View.setConf_slot_self]
  sects j hj := by
    rw [View.setConf_slot_ne _ _ (take_ne hj), View.setConf_slot_ne _ _ (take_ne hj), h.sects j hj]

theorem mapConf (h : a.Alike p b) (g : Conf V → Conf V) : (a.mapConf p g).Alike p (b.mapConf p g) where
  fs := h.fs
  rootName := h.rootName
  localConf := h.localConf
  slot := by rw [View.mapConf_slot_self, View.mapConf_slot_self, h.slot]
  sects j hj := by
    rw [View.mapConf_slot_ne _ _ (take_ne hj), View.mapConf_slot_ne _ _ (take_ne hj), h.sects j hj]

theorem symm (h : a.Alike p b) : b.Alike p a :=
  ⟨h.fs.symm, h.rootName.symm, h.localConf.symm, h.slot.symm, fun j hj => (h.sects j hj).symm⟩

theorem trans {c : View V} (h : a.Alike p b) (h' : b.Alike p c) : a.Alike p c :=
  ⟨h.fs.trans h'.fs, h.rootName.trans h'.rootName, h.localConf.trans h'.localConf, h.slot.trans h'.slot,
    fun j hj => (h.sects j hj).trans (h'.sects j hj)⟩

end View.Alike

namespace CMM
variable {p : List String}

/-- Shorthand: the same results. -/
abbrev VSim {α : Type} (p : List String) (m : M PyErr (View V) α) : Prop := Sim (View.Alike p) (fun a b => a = b) m m

theorem vload_sim : VSim p (vload (V := V) p) := by
  intro a b h
  unfold vload
  rw [← h.slot, ← h.fs]
  cases a.slot p with
  | conf c => exact ⟨.ok rfl, h⟩
  | file l =>
    dsimp only
    cases a.fs.load l with
    | ok c => exact ⟨.ok rfl, h.setConf c⟩
    | error e => exact ⟨.error e, h⟩
  | sect cfg => exact ⟨.ok rfl, h⟩
  | absent => exact ⟨.error _, h⟩

theorem same_refl {α : Type} (x : Except PyErr α) : SameRes (fun a b => a = b) x x := by
  cases x with
  | ok a => exact .ok rfl
  | error e => exact .error e

theorem vupdate_sim [BEq V] (d : Option (Dict String V)) (persist : Bool) (kw : Dict String V) :
    VSim p (vupdate d p persist kw) := by
  unfold vupdate
  refine Sim.bind vload_sim ?_
  rintro r _ rfl
  cases r with
  | none => exact Sim.raise _
  | some c =>
    dsimp only
    refine Sim.bind (Sim.liftE (same_refl _)) ?_
    rintro w _ rfl
    split
    · split
      · exact Sim.raise _
      · exact Sim.bind (Sim.modify (fun _ _ h => h.mapConf _)) (fun _ _ _ => Sim.pure rfl)
    · exact Sim.pure rfl

theorem vnewConfig_sim (c : Conf V) : VSim p (vnewConfig c) := by
  unfold vnewConfig
  refine Sim.bind Sim.get (fun a b h => ?_)
  cases c.file with
  | none => exact Sim.raise _
  | some loc =>
    dsimp only
    rw [h.fs]
    exact Sim.liftE (same_refl _)

theorem vrefresh_sim [BEq V] : VSim p (vrefresh (V := V) p) := by
  unfold vrefresh
  refine Sim.bind vload_sim ?_
  rintro r _ rfl
  cases r with
  | none => exact Sim.raise _
  | some c =>
    dsimp only
    refine Sim.bind (vnewConfig_sim c) ?_
    rintro n _ rfl
    split
    · exact Sim.pure rfl
    · refine Sim.bind (vnewConfig_sim c) ?_
      rintro n' _ rfl
      cases c.refresh n'.values with
      | error e => exact Sim.raise _
      | ok r =>
        obtain ⟨c', u⟩ := r
        exact Sim.bind (Sim.modify (fun _ _ h => h.mapConf _)) (fun _ _ _ => Sim.pure rfl)

theorem vget_sim : VSim p (vget (V := V) p) := by
  unfold vget
  refine Sim.bind vload_sim ?_
  rintro r _ rfl
  cases r with
  | none => exact Sim.pure rfl
  | some c =>
    dsimp only
    split
    · exact Sim.pure rfl
    · refine Sim.bind Sim.get (fun a b h => ?_)
      rw [h.levels, h.localConf]
      exact Sim.bind (Sim.modify (fun _ _ h => h.mapConf _)) (fun _ _ _ => Sim.pure rfl)

theorem vreset_sim [BEq V] : VSim p (vreset (V := V) p) := by
  unfold vreset
  refine Sim.bind Sim.get (fun a b h => ?_)
  rw [h.fs]
  refine Sim.bind (Sim.liftE (same_refl _)) ?_
  rintro v _ rfl
  refine Sim.bind (Sim.tryCatch vload_sim (fun e => ?_)) ?_
  · split
    · exact Sim.pure rfl
    · exact Sim.raise _
  · rintro r _ rfl
    cases r with
    | none => exact Sim.bind (Sim.modify (fun _ _ h => h.setConf _)) (fun _ _ _ => Sim.pure rfl)
    | some c =>
      dsimp only
      refine Sim.bind (Sim.liftE (same_refl _)) ?_
      rintro w _ rfl
      split
      · exact Sim.bind (Sim.modify (fun _ _ h => h.setConf _)) (fun _ _ _ => Sim.pure rfl)
      · exact Sim.pure rfl

end CMM

/-! ### The runner -/

/-- The object without its identity. -/
def Obj.anon (o : Obj V) : Obj V := { o with id := 0 }

/-- Runners that agree on the item at `p`: the configs it depends on, what is registered, and the created object up to its
identity. -/
structure RS.Alike (p : List String) (s t : RS V) : Prop where
  view : s.cm.view.Alike p t.cm.view
  reg : s.reg = t.reg
  obj : (s.objs.get? p).map Obj.anon = (t.objs.get? p).map Obj.anon
  item : IsItem s.cm p
  item' : IsItem t.cm p

namespace RM
variable {p : List String} {α : Type}

/-- Shorthand: results in the relation `R`. -/
abbrev RSim {α β : Type} (p : List String) (R : α → β → Prop) (m : RM V α) (n : RM V β) : Prop := Sim (RS.Alike p) R m n

/-- Shorthand: the same object but for its identity. -/
abbrev SameButId (o o' : Obj V) : Prop := o.anon = o'.anon

theorem liftC_sim [BEq V] {m : CMM V α} {v : M PyErr (View V) α} (hv : CMM.VSim p v)
    (hr : ∀ s, IsItem s p → CMM.Ref m v s) {op : CMOp V} (ho : op.OnItem p) (hstep : ∀ s, (m s).2 = s.step op) :
    RSim p (fun a b => a = b) (liftC m) (liftC m) := by
  intro s t h
  have h1 : v s.cm.view = _ := hr s.cm h.item
  have h2 : v t.cm.view = _ := hr t.cm h.item'
  obtain ⟨g1, g2⟩ := hv _ _ h.view
  rw [h1, h2] at g1 g2
  refine ⟨g1, g2, h.reg, h.obj, ?_, ?_⟩
  · show IsItem (m s.cm).2 p
    rw [hstep]
    exact CMM.step_item_isItem h.item ho h.item
  · show IsItem (m t.cm).2 p
    rw [hstep]
    exact CMM.step_item_isItem h.item' ho h.item'

theorem lookup_sim (q : List String) : RSim p (fun a b => a = b) (lookup (V := V) q) (lookup q) := by
  unfold lookup
  refine Sim.bind Sim.get (fun s t h => ?_)
  rw [h.reg]
  exact Sim.liftE (CMM.same_refl _)

theorem getConfig_sim [BEq V] : RSim p (fun a b => a = b) (getConfig (V := V) p) (getConfig p) := by
  unfold getConfig
  refine Sim.bind (liftC_sim CMM.vget_sim (fun s h => CMM.get_ref h) .get (fun _ => rfl)) ?_
  rintro r _ rfl
  cases r with
  | none => exact Sim.raise _
  | some c => exact Sim.pure rfl

theorem funcAndConfig_sim [BEq V] : RSim p (fun a b => a = b) (funcAndConfig (V := V) p) (funcAndConfig p) := by
  unfold funcAndConfig
  refine Sim.bind getConfig_sim ?_
  rintro c _ rfl
  refine Sim.bind (lookup_sim p) ?_
  rintro r _ rfl
  refine Sim.bind (Sim.liftE (CMM.same_refl _)) ?_
  rintro d _ rfl
  exact Sim.pure rfl

theorem anon_eq {o o' : Obj V} (h : SameButId o o') :
    o.isPartial = o'.isPartial ∧ o.callable = o'.callable ∧ o.kwargs = o'.kwargs := by
  obtain ⟨i, a, b, c⟩ := o
  obtain ⟨i', a', b', c'⟩ := o'
  have : (⟨0, a, b, c⟩ : Obj V) = ⟨0, a', b', c'⟩ := h
  injection this with _ h1 h2 h3
  exact ⟨h1, h2, h3⟩

theorem applyConfig_same_id {o o' : Obj V} (h : SameButId o o') (d : Dict String V) :
    SameRes SameButId (applyConfig o d) (applyConfig o' d) := by
  obtain ⟨h1, h2, h3⟩ := anon_eq h
  unfold applyConfig
  rw [h1, h2, h3]
  cases o'.isPartial with
  | true =>
    exact .ok rfl
  | false =>
    dsimp only
    cases o'.callable.sig.argNames true with
    | error e => exact .error e
    | ok names =>
      dsimp only
      cases o'.callable.upd _ with
      | error e => exact .error e
      | ok u => exact .ok rfl

theorem construct_same_id (i j : Nat) (k : Callable V) (d : Dict String V) :
    SameRes SameButId (construct i k d) (construct j k d) := by
  unfold construct
  have : SameRes SameButId (if d.contains (k.sig.args.headD "self") then .error PyErr.typeError
      else match k.init d with
      | .error e => .error e
      | .ok () => .ok ⟨i, false, k, d⟩) (if d.contains (k.sig.args.headD "self") then .error PyErr.typeError
      else match k.init d with
      | .error e => .error e
      | .ok () => .ok ⟨j, false, k, d⟩) := by
    split
    · exact .error _
    · cases k.init d with
      | error e => exact .error e
      | ok u => exact .ok rfl
  cases k.kind with
  | specific =>
    exact applyConfig_same_id (o := ⟨i, false, k, Dict.empty⟩) (o' := ⟨j, false, k, Dict.empty⟩) rfl d
  | func => exact this
  | klass => exact this

theorem set_alike {s t : RS V} (h : RS.Alike p s t) {o o' : Obj V} (ho : SameButId o o') (n m : Nat) :
    RS.Alike p { s with objs := s.objs.set p o, nextId := n } { t with objs := t.objs.set p o', nextId := m } where
  view := h.view
  reg := h.reg
  obj := by
    show ((s.objs.set p o).get? p).map _ = ((t.objs.set p o').get? p).map _
    rw [Dict.get?_set_self, Dict.get?_set_self]
    exact congrArg some ho
  item := h.item
  item' := h.item'

theorem store_sim {o o' : Obj V} (ho : SameButId o o') : RSim p (fun _ _ => True) (store p o) (store p o') :=
  Sim.modify (fun _ _ h => set_alike h ho _ _)

theorem obj_cases {s t : RS V} (h : RS.Alike p s t) :
    (s.objs.get? p = none ∧ t.objs.get? p = none) ∨
    ∃ o o', s.objs.get? p = some o ∧ t.objs.get? p = some o' ∧ SameButId o o' := by
  have := h.obj
  cases hs : s.objs.get? p with
  | none =>
    cases ht : t.objs.get? p with
    | none => exact .inl ⟨rfl, rfl⟩
    | some o' => rw [hs, ht] at this; cases this
  | some o =>
    cases ht : t.objs.get? p with
    | none => rw [hs, ht] at this; cases this
    | some o' =>
      rw [hs, ht] at this
      exact .inr ⟨o, o', rfl, rfl, Option.some.inj this⟩

theorem getOneFunc_sim [BEq V] : RSim p SameButId (getOneFunc (V := V) p) (getOneFunc p) := by
  unfold getOneFunc
  refine Sim.bind Sim.get (fun s t h => ?_)
  rcases obj_cases h with ⟨h1, h2⟩ | ⟨o, o', h1, h2, ho⟩
  · rw [h1, h2]
    refine Sim.bind funcAndConfig_sim ?_
    rintro ⟨r, d⟩ _ rfl
    cases r with
    | item k =>
      refine Sim.bind Sim.get (fun s t h => ?_)
      exact Sim.bind (store_sim rfl) (fun _ _ _ => Sim.pure rfl)
    | coll _ _ => exact Sim.raise _
    | other => exact Sim.raise _
  · rw [h1, h2]
    exact Sim.pure ho

theorem getOneObj_sim [BEq V] : RSim p SameButId (getOneObj (V := V) p) (getOneObj p) := by
  unfold getOneObj
  refine Sim.bind Sim.get (fun s t h => ?_)
  rcases obj_cases h with ⟨h1, h2⟩ | ⟨o, o', h1, h2, ho⟩
  · rw [h1, h2]
    refine Sim.bind (lookup_sim p) (fun _ _ _ => Sim.bind funcAndConfig_sim ?_)
    rintro ⟨r, d⟩ _ rfl
    cases r with
    | item k =>
      refine Sim.bind Sim.get (fun s t h => ?_)
      refine Sim.bind (Sim.liftE (construct_same_id _ _ k d)) (fun o o' ho => ?_)
      exact Sim.bind (store_sim ho) (fun _ _ _ => Sim.pure ho)
    | coll _ _ => exact Sim.raise _
    | other => exact Sim.raise _
  · rw [h1, h2]
    exact Sim.pure ho

theorem callObj_same {o o' : Obj V} (h : SameButId o o') : callObj o = callObj o' := by
  obtain ⟨h1, h2, h3⟩ := anon_eq h
  unfold callObj
  rw [h1, h2, h3]

theorem getItem_sim [BEq V] (k : Callable V) : RSim p SameButId (getItem p k) (getItem p k) := by
  unfold getItem
  cases k.kind
  · exact getOneFunc_sim
  · exact getOneObj_sim
  · exact getOneObj_sim

theorem runItem_sim [BEq V] (k : Callable V) : RSim p (fun a b => a = b) (runItem p k) (runItem p k) := by
  have h1 : RSim p (fun a b => a = b) (runOneFunc (V := V) p) (runOneFunc p) := by
    unfold runOneFunc
    refine Sim.bind funcAndConfig_sim (fun _ _ _ => Sim.bind getOneFunc_sim (fun o o' ho => ?_))
    rw [callObj_same ho]
    exact Sim.liftE (CMM.same_refl _)
  have h2 : RSim p (fun a b => a = b) (runOneObj (V := V) p) (runOneObj p) := by
    unfold runOneObj
    refine Sim.bind funcAndConfig_sim (fun _ _ _ => Sim.bind getOneObj_sim (fun o o' ho => ?_))
    rw [callObj_same ho]
    exact Sim.liftE (CMM.same_refl _)
  unfold runItem
  cases k.kind
  · exact h1
  · exact h2
  · exact h2

theorem applyToLoaded_sim (config announced : Dict String V) :
    RSim p (fun a b => a = b) (applyToLoaded p config announced) (applyToLoaded p config announced) := by
  unfold applyToLoaded
  refine Sim.bind Sim.get (fun s t h => ?_)
  rcases obj_cases h with ⟨h1, h2⟩ | ⟨o, o', h1, h2, ho⟩
  · rw [h1, h2]
    exact Sim.pure rfl
  · rw [h1, h2]
    refine Sim.bind (Sim.liftE (applyConfig_same_id ho config)) (fun n n' hn => ?_)
    refine Sim.bind (Sim.modify (fun s t h => set_alike h hn s.nextId t.nextId)) (fun _ _ _ => ?_)
    split
    · exact Sim.raise _
    · exact Sim.pure rfl

theorem update_sim [BEq V] (d : Option (Dict String V)) (persist : Bool) (kw : Dict String V) :
    RSim p (fun a b => a = b) (update d (some p) persist kw) (update d (some p) persist kw) := by
  unfold update
  refine Sim.bind (liftC_sim (CMM.vupdate_sim d persist kw) (fun s h => CMM.update_ref h d persist kw)
    (.update d persist kw) (fun _ => rfl)) ?_
  rintro ⟨c, u⟩ _ rfl
  cases u with
  | false => exact Sim.pure rfl
  | true => exact applyToLoaded_sim _ _

theorem reset_sim [BEq V] : RSim p (fun a b => a = b) (reset (V := V) (some p) false) (reset (some p) false) := by
  unfold reset
  refine Sim.bind (liftC_sim CMM.vreset_sim (fun s h => CMM.reset_ref h) .reset (fun _ => rfl)) ?_
  rintro ⟨n, u⟩ _ rfl
  cases u with
  | false => exact Sim.pure rfl
  | true => cases n with
    | conf c => exact applyToLoaded_sim _ _
    | _ => exact Sim.pure rfl

theorem refresh_sim [BEq V] : RSim p (fun a b => a = b) (refresh (V := V) p) (refresh p) := by
  unfold refresh
  refine Sim.bind (liftC_sim CMM.vrefresh_sim (fun s h => CMM.refresh_ref h) .refresh (fun _ => rfl)) ?_
  rintro ⟨c, u, us⟩ _ rfl
  refine Sim.bind Sim.get (fun s t h => ?_)
  have hc : s.objs.contains p = t.objs.contains p := by
    unfold Dict.contains
    rcases obj_cases h with ⟨h1, h2⟩ | ⟨o, o', h1, h2, ho⟩ <;> rw [h1, h2]
    rfl
  rw [hc]
  split
  · refine Sim.bind getConfig_sim ?_
    rintro c _ rfl
    exact applyToLoaded_sim _ _
  · exact Sim.pure rfl

end RM
end Verif.Model
