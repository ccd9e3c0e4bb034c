import Verif.Model.ObjState
import Verif.Props.ObjectCurrent

/-
Property theorems about the attributes of objects whose configuration is updated: C111.
-/

namespace Verif.Props
open Verif.Py Verif.Model

variable {V : Type}

/-! ## Specification -/

/-- `__init__` sets the attributes in `W` from its arguments alone: whether it raises does not depend on the object, it changes
nothing if it raises, and it leaves other attributes alone. -/
structure Settles (m : Method V) (W : String → Prop) : Prop where
  outcome : ∀ d a, (m d a).1 = (m d Attrs.blank).1
  same : ∀ d a, (m d a).1 = .ok () → ∀ x, W x → (m d a).2 x = (m d Attrs.blank).2 x
  rest : ∀ d a, ∀ x, ¬ W x → (m d a).2 x = a x
  undone : ∀ d a e, (m d a).1 = .error e → (m d a).2 = a

/-- No update method of its own, or that of `PyfileconfBase`. -/
def PlainUpdate (k : ObjClass V) : Prop := k.update = none ∨ k.update = some k.init

/-- The values the class has parameters for. -/
def given (names : List String) (d : Dict String V) : Dict String V := d.filterKeys (fun x => decide (x ∈ names))

/-- The arguments of the last configuration that did not make the class raise. -/
def lastGiven (k : ObjClass V) (names : List String) (d : Dict String V) : List (ObjEvent V) → Dict String V
  | [] => d
  | .config c :: evs => match k.make (given names c) with
    | .ok _ => lastGiven k names (given names c) evs
    | .error _ => lastGiven k names d evs
  | .other _ :: evs => lastGiven k names d evs

/-- Other code leaves the attributes in `W` alone. -/
def KeepsThese (W : String → Prop) : ObjEvent V → Prop
  | .config _ => True
  | .other f => ∀ a x, W x → f a x = a x

/-- The attributes in `W` are those of a new object made with `d`. -/
def LikeNew (k : ObjClass V) (W : String → Prop) (d : Dict String V) (a : Attrs V) : Prop :=
  ∃ b, k.make d = .ok b ∧ ∀ x, W x → a x = b x

/-! ## Lemmas -/

theorem updateFunc_plain {k : ObjClass V} (h : PlainUpdate k) : k.updateFunc = k.init := by
  unfold ObjClass.updateFunc
  rcases h with h | h <;> rw [h]

theorem applyConfig_plain {k : ObjClass V} (h : PlainUpdate k) {names : List String} (hn : k.sig.argNames true = .ok names)
    (d : Dict String V) (a : Attrs V) : k.applyConfig d a = k.init (given names d) a := by
  unfold ObjClass.applyConfig
  rw [hn, updateFunc_plain h]
  rfl

theorem make_ok {k : ObjClass V} {d : Dict String V} {b : Attrs V} :
    k.make d = .ok b ↔ k.init d Attrs.blank = (.ok (), b) := by
  unfold ObjClass.make
  cases h : k.init d Attrs.blank with
  | mk r s =>
    cases r with
    | ok u => simp
    | error e => simp

theorem settles_apply {k : ObjClass V} {W : String → Prop} (hs : Settles k.init W) (hu : PlainUpdate k) {names : List String}
    (hn : k.sig.argNames true = .ok names) (c : Dict String V) (a : Attrs V) :
    (∃ b, k.make (given names c) = .ok b ∧ (k.applyConfig c a).1 = .ok () ∧
      (∀ x, W x → (k.applyConfig c a).2 x = b x) ∧ ∀ x, ¬ W x → (k.applyConfig c a).2 x = a x) ∨
    (∃ e, k.make (given names c) = .error e ∧ k.applyConfig c a = (.error e, a)) := by
  rw [applyConfig_plain hu hn]
  unfold ObjClass.make
  have h1 := hs.outcome (given names c) a
  have h2 := hs.same (given names c) a
  have h3 := hs.rest (given names c) a
  have h4 := hs.undone (given names c) a
  cases hb : k.init (given names c) Attrs.blank with
  | mk r b =>
    rw [hb] at h1 h2
    cases r with
    | ok u => exact .inl ⟨b, rfl, h1, h2 h1, h3⟩
    | error e => exact .inr ⟨e, rfl, Prod.ext h1 (h4 e h1)⟩

/-! ## C111 -/

/-- C111 (missing: classes with an update method of their own, see `C111_method_violated`, and other classes, see the
counterexamples): after any sequence of updates and of things other code does with other attributes, the attributes which
`__init__` sets are those of an object made anew from the last configuration that the class has accepted. -/
theorem C111_like_new_partial (k : ObjClass V) (W : String → Prop) (hs : Settles k.init W) (hu : PlainUpdate k)
    (names : List String) (hn : k.sig.argNames true = .ok names) (evs : List (ObjEvent V)) (he : ∀ e ∈ evs, KeepsThese W e)
    (d : Dict String V) (a : Attrs V) (ha : LikeNew k W d a) :
    LikeNew k W (lastGiven k names d evs) (evs.foldl (ObjEvent.step k) a) := by
  induction evs generalizing d a with
  | nil => exact ha
  | cons ev evs ih =>
    have ih := ih (fun e h => he e (List.mem_cons_of_mem _ h))
    rw [List.foldl_cons]
    cases ev with
    | other f =>
      refine ih d _ ?_
      obtain ⟨b, hb, hab⟩ := ha
      refine ⟨b, hb, fun x hx => ?_⟩
      rw [show ObjEvent.step k a (.other f) x = f a x from rfl, he _ List.mem_cons_self a x hx]
      exact hab x hx
    | config c =>
      rcases settles_apply hs hu hn c a with ⟨b, hb, _, h2, _⟩ | ⟨e, hb, h2⟩
      · have : lastGiven k names d (.config c :: evs) = lastGiven k names (given names c) evs := by
          rw [lastGiven, hb]
        rw [this]
        exact ih _ _ ⟨b, hb, h2⟩
      · have : lastGiven k names d (.config c :: evs) = lastGiven k names d evs := by
          rw [lastGiven, hb]
        rw [this]
        refine ih _ _ ?_
        rw [show ObjEvent.step k a (.config c) = a from congrArg Prod.snd h2]
        exact ha

/-- C111: the object of a class is so from the start, and that of a specific class whatever the object was like that its name
was made into. -/
theorem C111_first_partial (k : ObjClass V) (W : String → Prop) (hs : Settles k.init W) (hu : PlainUpdate k)
    (names : List String) (hn : k.sig.argNames true = .ok names) (d : Dict String V) (registered : Option (Attrs V))
    (a : Attrs V) (ha : k.first registered d = .ok a) :
    LikeNew k W (match registered with | none => d | some _ => given names d) a := by
  cases registered with
  | none => exact ⟨a, ha, fun _ _ => rfl⟩
  | some r =>
    have h0 : k.first (some r) d = match k.applyConfig d r with
      | (.ok (), a') => .ok a'
      | (.error e, _) => .error e := rfl
    rw [h0] at ha
    rcases settles_apply hs hu hn d r with ⟨b, hb, h1, h2, _⟩ | ⟨e, _, h2⟩
    · refine ⟨b, hb, ?_⟩
      cases hh : k.applyConfig d r with
      | mk r' s' =>
        rw [hh] at ha h1 h2
        cases h1
        cases ha
        exact h2
    · rw [h2] at ha
      cases ha

/-- C111: an update leaves the attributes alone that `__init__` does not set, and a refused update leaves all alone. -/
theorem C111_rest_partial (k : ObjClass V) (W : String → Prop) (hs : Settles k.init W) (hu : PlainUpdate k)
    (names : List String) (hn : k.sig.argNames true = .ok names) (c : Dict String V) (a : Attrs V) :
    (∀ x, ¬ W x → (k.applyConfig c a).2 x = a x) ∧
    (∀ e, (k.applyConfig c a).1 = .error e → (k.applyConfig c a).2 = a) := by
  rcases settles_apply hs hu hn c a with ⟨b, _, h1, _, h3⟩ | ⟨e, _, h2⟩
  · exact ⟨h3, fun e he => by rw [h1] at he; cases he⟩
  · rw [h2]
    exact ⟨fun _ _ => rfl, fun _ _ => rfl⟩

/-- C111: the base class `PyfileconfBase` changes nothing. -/
theorem C111_base (sig : Sig) (init : Method V) (c : Dict String V) (a : Attrs V) (registered : Option (Attrs V)) :
    (ObjClass.withBase sig init).applyConfig c a = (ObjClass.mk sig init none).applyConfig c a ∧
    (ObjClass.withBase sig init).first registered c = (ObjClass.mk sig init none).first registered c := by
  constructor
  · rfl
  · cases registered <;> rfl

/-- C111 (missing as in `C111_like_new_partial`): the model of the runner, which has only the arguments an object was last
given, says of such classes what happens to the attributes: after an update they are those of a new object with the new
arguments, and if the update raises it raises the same, and nothing has changed. -/
theorem C111_arguments_partial (k : ObjClass V) (W : String → Prop) (hs : Settles k.init W) (hu : PlainUpdate k)
    (kind : CKind) (exec : Dict String V → Except PyErr V) (o : Obj V) (ho : o.isPartial = false)
    (hk : o.callable = k.callable kind exec) (hargs : k.sig.args ≠ []) (a : Attrs V) (c : Dict String V) :
    match RM.applyConfig o c with
    | .ok o' => (k.applyConfig c a).1 = .ok () ∧ LikeNew k W o'.kwargs (k.applyConfig c a).2
    | .error e => k.applyConfig c a = (.error e, a) := by
  obtain ⟨names, hn⟩ : ∃ names, k.sig.argNames true = .ok names := by
    unfold Sig.argNames
    cases hh : k.sig.args with
    | nil => exact absurd hh hargs
    | cons y ys => exact ⟨_, rfl⟩
  have hn' : o.callable.sig.argNames true = .ok names := by rw [hk]; exact hn
  have hap : RM.applyConfig o c = match k.make (given names c) with
      | .ok _ => .ok { o with kwargs := given names c }
      | .error e => .error e := by
    unfold RM.applyConfig
    rw [ho, hn']
    simp only
    rw [hk]
    show (match (match k.make (given names c) with | .ok _ => Except.ok () | .error e => .error e) with
      | .error e => _
      | .ok () => _) = _
    cases k.make (given names c) with
    | ok b =>
      simp only
      rw [← ho, ← hk]
      rfl
    | error e => rfl
  rw [hap]
  rcases settles_apply hs hu hn c a with ⟨b, hb, h1, h2, _⟩ | ⟨e, hb, h2⟩
  · rw [hb]
    exact ⟨h1, b, hb, h2⟩
  · rw [hb]
    exact h2

/-- What an operation on the item does with its object. -/
theorem applied_object [BEq V] {s : RS V} {p q : List String} {k' : Callable V} (hq : IsItem s.cm q)
    (hk : s.reg.lookup q = .ok (.item k')) {o : Obj V} (ho : created s p = some o) {op : ROp V} (hop : op.OnItem q) :
    created (s.step op) p = match s.applied p op with
      | some d => match RM.applyConfig o d with
        | .ok o' => some o'
        | .error _ => some o
      | none => some o := by
  have happly : ∀ (cm : CM V) (c announced : Dict String V),
      created (RM.applyToLoaded p c announced { s with cm }).2 p = match RM.applyConfig o c with
        | .ok o' => some o'
        | .error _ => some o := by
    intro cm c announced
    unfold RM.applyToLoaded
    rw [M.bind_ok (M.get_run _)]
    simp only [show s.objs.get? p = some o from ho]
    rw [M.bind_run, M.liftE_run]
    cases ha : RM.applyConfig o c with
    | error e => exact ho
    | ok o' =>
      simp only
      rw [M.bind_ok (M.modify_run _ _)]
      split <;> exact Dict.get?_set_self _ _ _
  by_cases hqp : q = p
  · subst hqp
    cases hop with
    | get =>
      show created (RM.get q s).2 q = some o
      rw [RM.get_item hk]
      have : RM.getItem q k' s = (.ok o, s) := by
        unfold RM.getItem RM.getOneFunc RM.getOneObj
        cases k'.kind <;> simp only <;> rw [M.bind_ok (M.get_run s), show s.objs.get? q = some o from ho] <;> rfl
      rw [M.bind_ok this]
      exact ho
    | run =>
      show (s.step (.run q)).objs.get? q = some o
      rw [(run_created hk ho).1]
      exact ho
    | update d persist kw =>
      show created (RM.update d (some q) persist kw s).2 q = _
      have h0 : s.applied q (.update d (some q) persist kw) = match (CMM.update d (some q) persist kw s.cm).1 with
          | .ok (c, true) => some c.values
          | _ => none := if_pos rfl
      rw [h0]
      unfold RM.update
      rw [M.bind_run]
      unfold RM.liftC
      cases hh : (CMM.update d (some q) persist kw s.cm).1 with
      | error e => exact ho
      | ok r =>
        obtain ⟨c, u⟩ := r
        cases u with
        | false => exact ho
        | true => exact happly _ _ _
    | reset =>
      show created (RM.reset (some q) false s).2 q = _
      have h0 : s.applied q (.reset (some q) false) = match (CMM.reset (some q) false s.cm).1 with
          | .ok (.conf c, true) => some c.values
          | _ => none := if_pos rfl
      rw [h0]
      unfold RM.reset
      rw [M.bind_run]
      unfold RM.liftC
      cases hh : (CMM.reset (some q) false s.cm).1 with
      | error e => exact ho
      | ok r =>
        obtain ⟨n, u⟩ := r
        cases u <;> cases n <;> first | exact ho | exact happly _ _ _
    | refresh =>
      show created (RM.refresh q s).2 q = _
      have h0 : s.applied q (.refresh q) = match (CMM.refresh q s.cm).1 with
          | .ok (_, true, _) =>
            match (CMM.get q (CMM.refresh q s.cm).2).1 with
            | .ok (some c) => some c.values
            | _ => none
          | _ => none := if_pos rfl
      rw [h0]
      unfold RM.refresh
      rw [M.bind_run]
      unfold RM.liftC
      cases hh : (CMM.refresh q s.cm).1 with
      | error e => exact ho
      | ok r =>
        obtain ⟨c, u, us⟩ := r
        simp only
        rw [M.bind_ok (M.get_run _)]
        have hcont : s.objs.contains q = true := by
          unfold Dict.contains
          rw [show s.objs.get? q = some o from ho]
          rfl
        cases u with
        | false =>
          rw [if_neg (by simp)]
          exact ho
        | true =>
          rw [if_pos ⟨rfl, hcont⟩]
          simp only
          cases hg : (CMM.get q (CMM.refresh q s.cm).2).1 with
          | error e =>
            have hgc : RM.getConfig q { s with cm := (CMM.refresh q s.cm).2 } =
                (.error e, { s with cm := (CMM.get q (CMM.refresh q s.cm).2).2 }) := by
              unfold RM.getConfig
              rw [M.bind_run]
              unfold RM.liftC
              simp only [hg]
            rw [M.bind_error hgc]
            exact ho
          | ok oc =>
            cases oc with
            | none =>
              have hgc : RM.getConfig q { s with cm := (CMM.refresh q s.cm).2 } =
                  (.error .notLoaded, { s with cm := (CMM.get q (CMM.refresh q s.cm).2).2 }) := by
                unfold RM.getConfig
                rw [M.bind_run]
                unfold RM.liftC
                simp only [hg]
                rfl
              rw [M.bind_error hgc]
              exact ho
            | some ca =>
              have hgc : RM.getConfig q { s with cm := (CMM.refresh q s.cm).2 } =
                  (.ok ca, { s with cm := (CMM.get q (CMM.refresh q s.cm).2).2 }) := by
                unfold RM.getConfig
                rw [M.bind_run]
                unfold RM.liftC
                simp only [hg]
                rfl
              rw [M.bind_ok hgc]
              exact happly _ _ _
  · have hfr := RS.step_frame hq hk hop
    have hnone : s.applied p op = none := by
      cases hop with
      | get => rfl
      | run => rfl
      | update d persist kw => exact if_neg hqp
      | reset => exact if_neg hqp
      | refresh => exact if_neg hqp
    rw [hnone]
    exact (hfr.objs p (Ne.symm hqp)).trans ho

/-- The operations of a history. -/
def operations : List (JointEvent V) → List (ROp V)
  | [] => []
  | .call op :: evs => op :: operations evs
  | .other _ :: evs => operations evs

/-- Other code leaves the attributes in `W` alone. -/
def JointLeaves (W : String → Prop) : JointEvent V → Prop
  | .call _ => True
  | .other f => ∀ a x, W x → f a x = a x

theorem joint_fst [BEq V] (k : ObjClass V) (p : List String) (evs : List (JointEvent V)) (s : RS V) (a : Attrs V) :
    (evs.foldl (JointEvent.step k p) (s, a)).1 = after s (operations evs) := by
  induction evs generalizing s a with
  | nil => rfl
  | cons ev evs ih =>
    rw [List.foldl_cons]
    cases ev with
    | call op => exact ih _ _
    | other f => exact ih _ _

theorem joint_likeNew [BEq V] {k : ObjClass V} {W : String → Prop} (hs : Settles k.init W) (hu : PlainUpdate k)
    (hargs : k.sig.args ≠ []) {kind : CKind} {exec : Dict String V → Except PyErr V} {s : RS V} {p : List String}
    (evs : List (JointEvent V)) (hops : ∀ op ∈ operations evs, ItemCall s op) (hev : ∀ e ∈ evs, JointLeaves W e) :
    ∀ (t : RS V) (a : Attrs V), t.reg = s.reg → (∀ q, IsItem s.cm q → IsItem t.cm q) →
      (∃ o, created t p = some o ∧ o.isPartial = false ∧ o.callable = k.callable kind exec ∧ LikeNew k W o.kwargs a) →
      ∃ o, created (evs.foldl (JointEvent.step k p) (t, a)).1 p = some o ∧ o.isPartial = false ∧
        o.callable = k.callable kind exec ∧ LikeNew k W o.kwargs (evs.foldl (JointEvent.step k p) (t, a)).2 := by
  induction evs with
  | nil => intro t a _ _ h; exact h
  | cons ev evs ih =>
    intro t a hreg hitems h
    obtain ⟨o, ho, hpt, hk, hl⟩ := h
    rw [List.foldl_cons]
    have hev' : ∀ e ∈ evs, JointLeaves W e := fun e he => hev e (List.mem_cons_of_mem _ he)
    cases ev with
    | other f =>
      refine ih hops hev' t _ hreg hitems ⟨o, ho, hpt, hk, ?_⟩
      obtain ⟨b, hb, hab⟩ := hl
      exact ⟨b, hb, fun x hx => (hev _ List.mem_cons_self a x hx).trans (hab x hx)⟩
    | call op =>
      have hops' : ∀ op ∈ operations evs, ItemCall s op := fun o ho => hops o (List.mem_cons_of_mem _ ho)
      rcases hops op List.mem_cons_self with ⟨q, k', hq, hop⟩ | ⟨fs, rfl⟩
      · have hqi := hitems q hq.config.isItem
        have hqk : t.reg.lookup q = .ok (.item k') := by rw [hreg]; exact hq.registered
        have hfr := RS.step_frame hqi hqk hop
        refine ih hops' hev' _ _ (hfr.reg.trans hreg) (fun r hr => hfr.items r (hitems r hr)) ?_
        have hap := applied_object hqi hqk ho hop
        cases hd : t.applied p op with
        | none =>
          rw [hd] at hap
          exact ⟨o, hap, hpt, hk, hl⟩
        | some d =>
          rw [hd] at hap
          have hr := C111_arguments_partial k W hs hu kind exec o hpt hk hargs a d
          simp only at hap ⊢
          cases hac : RM.applyConfig o d with
          | ok o' =>
            rw [hac] at hap hr
            have hsame := (RM.applyConfig_same hac).1
            exact ⟨o', hap, hsame.isPartial.trans hpt, hsame.callable.trans hk, hr.2⟩
          | error e =>
            rw [hac] at hap hr
            refine ⟨o, hap, hpt, hk, ?_⟩
            simp only at hr
            rw [hr]
            exact hl
      · refine ih hops' hev' _ _ hreg (fun q hq => ⟨(hitems q hq).ne, (hitems q hq).plain, (hitems q hq).item⟩) ?_
        exact ⟨o, ho, hpt, hk, hl⟩

/-- C111 with C110 (missing as in both): after any history of calls for items, and of things other code does with other
attributes, the attributes which `__init__` sets are those of an object made anew from what the configuration says now. -/
theorem C111_current_partial [BEq V] (k : ObjClass V) (W : String → Prop) (hset : Settles k.init W) (hu : PlainUpdate k)
    (kind : CKind) (hkind : kind ≠ .func) (exec : Dict String V → Except PyErr V) (s : RS V) (hs : s.Reachable)
    (p : List String) (hp : RunnerItem s p (k.callable kind exec)) (names : List String)
    (hn : k.sig.argNames true = .ok names) (hnone : created s p = none) (o : Obj V)
    (hr : (RM.get p s).1 = .ok (.obj o)) (a : Attrs V) (ha : LikeNew k W o.kwargs a) (evs : List (JointEvent V))
    (hops : ∀ op ∈ operations evs, ItemCall s op) (hev : ∀ e ∈ evs, JointLeaves W e)
    (hrun : .run p ∈ operations evs → ∀ x ∈ names, NotInherited s.cm p x)
    (hret : (∀ d, ∃ b, k.make d = .ok b) ∨ AllReturn p (RM.get p s).2 (operations evs)) :
    ∃ c, (evs.foldl (JointEvent.step k p) ((RM.get p s).2, a)).1.cm.walk p = .ok (.conf c) ∧
      LikeNew k W (valuesFor names c.values) (evs.foldl (JointEvent.step k p) ((RM.get p s).2, a)).2 := by
  have hi := hp.config.isItem
  have hargs : k.sig.args ≠ [] := by
    intro hh
    unfold Sig.argNames at hn
    rw [hh] at hn
    cases hn
  have hret' : (∀ d, (k.callable kind exec).upd d = .ok ()) ∨ AllReturn p (RM.get p s).2 (operations evs) := by
    refine hret.imp_left (fun h d => ?_)
    obtain ⟨b, hb⟩ := h d
    show (match k.make d with | .ok _ => Except.ok () | .error e => .error e) = _
    rw [hb]
  obtain ⟨o1, c1, he, hc⟩ := RS.Carries.create hi hp.registered hkind hn hnone hr
  cases he
  obtain ⟨o', c, h1, _, _, h4, h5, _⟩ := C110_arguments_partial s hs p (k.callable kind exec) hp hkind names hn hnone _ hr
    (operations evs) hops hrun hret'
  have hfr := RS.step_frame hi hp.registered (.get (V := V) (p := p))
  obtain ⟨o2, g1, _, _, g4⟩ := joint_likeNew (kind := kind) (exec := exec) (p := p) hset hu hargs evs hops hev (RM.get p s).2 a
    hfr.reg hfr.items ⟨o, hc.obj, hc.isObject, hc.callable, ha⟩
  rw [joint_fst] at g1 ⊢
  rw [h1] at g1
  cases g1
  exact ⟨c, h4, by rw [← h5]; exact g4⟩

/-! ### A class of which this is true -/

/-- `__init__` with a check of the arguments, that then sets attributes from them. -/
def straight (check : Dict String V → Except PyErr Unit) (attrs : List (String × (Dict String V → V))) : Method V :=
  fun d a => match check d with
    | .error e => (.error e, a)
    | .ok () => (.ok (), attrs.foldl (fun b e => b.put e.1 (e.2 d)) a)

theorem straight_put (d : Dict String V) (attrs : List (String × (Dict String V → V))) (a b : Attrs V) (x : String) :
    (x ∈ attrs.map (·.1) → attrs.foldl (fun b e => Attrs.put b e.1 (e.2 d)) a x =
      attrs.foldl (fun b e => Attrs.put b e.1 (e.2 d)) b x) ∧
    (x ∉ attrs.map (·.1) → attrs.foldl (fun b e => Attrs.put b e.1 (e.2 d)) a x = a x) := by
  have hout : ∀ (attrs : List (String × (Dict String V → V))) (a : Attrs V), x ∉ attrs.map (·.1) →
      attrs.foldl (fun b e => Attrs.put b e.1 (e.2 d)) a x = a x := by
    intro attrs
    induction attrs with
    | nil => intro a _; rfl
    | cons e attrs ih =>
      intro a hx
      simp only [List.map_cons, List.mem_cons, not_or] at hx
      rw [List.foldl_cons, ih _ hx.2]
      unfold Attrs.put
      rw [if_neg hx.1]
  refine ⟨?_, hout attrs a⟩
  intro hx
  induction attrs generalizing a b with
  | nil => simp at hx
  | cons e attrs ih =>
    rw [List.foldl_cons, List.foldl_cons]
    by_cases hx' : x ∈ attrs.map (·.1)
    · exact ih _ _ hx'
    · rw [hout attrs _ hx', hout attrs _ hx']
      simp only [List.map_cons, List.mem_cons] at hx
      rcases hx with rfl | hx
      · simp [Attrs.put]
      · exact absurd hx hx'

/-- Every class with such an `__init__` is one of those of the theorems. -/
theorem straight_settles (check : Dict String V → Except PyErr Unit) (attrs : List (String × (Dict String V → V))) :
    Settles (straight check attrs) (fun x => x ∈ attrs.map (·.1)) := by
  constructor
  · intro d a
    unfold straight
    cases check d <;> rfl
  · intro d a h x hx
    unfold straight at h ⊢
    cases hc : check d with
    | error e => rw [hc] at h; cases h
    | ok u => exact (straight_put d attrs a Attrs.blank x).1 hx
  · intro d a x hx
    unfold straight
    cases hc : check d with
    | error e => rfl
    | ok u => exact (straight_put d attrs a Attrs.blank x).2 hx
  · intro d a e h
    unfold straight at h ⊢
    cases hc : check d with
    | error e => rfl
    | ok u => rw [hc] at h; cases h

/-- `__init__(self, a, b)` with `self.a = a`, `self.b = b` and `self.total = a + b`. -/
def demoStateInit : Method Nat :=
  straight (fun d => if d.contains "a" then .ok () else .error .typeError)
    [("a", fun d => (d.get? "a").getD 0), ("b", fun d => (d.get? "b").getD 0),
      ("total", fun d => (d.get? "a").getD 0 + (d.get? "b").getD 0)]

/-- The class with this `__init__`. -/
def demoState : ObjClass Nat := ⟨⟨["self", "a", "b"], [], []⟩, demoStateInit, none⟩

/-- Its object has the total of the last configuration. -/
example : Settles demoState.init (fun x => x ∈ ["a", "b", "total"]) ∧ PlainUpdate demoState ∧
    demoState.sig.argNames true = .ok ["a", "b"] ∧
    LikeNew demoState (fun x => x ∈ ["a", "b", "total"]) (Dict.ofList [("a", 1)])
      ((demoState.make (Dict.ofList [("a", 1)])).toOption.getD Attrs.blank) ∧
    ([ObjEvent.config (Dict.ofList [("a", 1), ("b", 5)]), .other (fun a => a.put "cache" 3),
      .config (Dict.ofList [("b", 7)])].foldl (ObjEvent.step demoState) Attrs.blank) "total" = some 6 :=
  ⟨straight_settles _ _, .inl rfl, rfl, ⟨_, rfl, fun _ _ => rfl⟩, by decide +kernel⟩

/-- The hypotheses of `C111_current_partial` are met. -/
example : (smallRunner (demoState.callable .klass (fun _ => .ok 0))).Reachable ∧
    RunnerItem (smallRunner (demoState.callable .klass (fun _ => .ok 0))) ["f"] (demoState.callable .klass (fun _ => .ok 0)) ∧
    (∃ o a, (RM.get ["f"] (smallRunner (demoState.callable .klass (fun _ => .ok 0)))).1 = .ok (.obj o) ∧
      LikeNew demoState (fun x => x ∈ ["a", "b", "total"]) o.kwargs a) ∧
    AllReturn ["f"] (RM.get ["f"] (smallRunner (demoState.callable .klass (fun _ => .ok 0)))).2
      [.update none (some ["f"]) true (Dict.ofList [("a", 5)]), .run ["f"]] :=
  ⟨smallRunner_reachable _, smallRunner_item _, ⟨_, _, rfl, _, rfl, fun _ _ => rfl⟩, fun _ => rfl, fun _ => trivial, trivial⟩

/-! ### Counterexamples -/

/-- `self.a = a`, then a `ValueError` if `b` is over 5, then `self.b = b`. -/
def halfInit : Method Nat := fun d a =>
  let a1 := a.put "a" ((d.get? "a").getD 0)
  if (d.get? "b").getD 0 > 5 then (.error .valueError, a1)
  else (.ok (), a1.put "b" ((d.get? "b").getD 0))

/-- A class with this `__init__`. -/
def demoHalf : ObjClass Nat := ⟨⟨["self", "a", "b"], [], []⟩, halfInit, none⟩

/-- C111 fails for a class that raises after it has set some attributes: the object is a mixture of the old and the new
configuration. -/
theorem C111_half_violated :
    (demoHalf.applyConfig (Dict.ofList [("a", 2), ("b", 9)]) ((Attrs.blank.put "a" 1).put "b" 1)).1 = .error .valueError ∧
    (demoHalf.applyConfig (Dict.ofList [("a", 2), ("b", 9)]) ((Attrs.blank.put "a" 1).put "b" 1)).2 "a" = some 2 ∧
    (demoHalf.applyConfig (Dict.ofList [("a", 2), ("b", 9)]) ((Attrs.blank.put "a" 1).put "b" 1)).2 "b" = some 1 :=
  ⟨rfl, rfl, rfl⟩

/-- C111 fails for attributes that are set later: a value that other code has computed from `a` and kept stays as it was. -/
theorem C111_cache_violated :
    let a := [ObjEvent.config (Dict.ofList [("a", 1)]), .other (fun a => a.put "twice" ((a "a").getD 0 * 2)),
      .config (Dict.ofList [("a", 5)])].foldl (ObjEvent.step demoState) Attrs.blank
    a "a" = some 5 ∧ a "twice" = some 2 := by
  decide +kernel

/-- An update method that sets the attributes `a` and `b` only. -/
def plainUpdate : Method Nat :=
  straight (fun _ => .ok ()) [("a", fun d => (d.get? "a").getD 0), ("b", fun d => (d.get? "b").getD 0)]

/-- The class above with this update method. -/
def demoMethod : ObjClass Nat := ⟨⟨["self", "a", "b"], [], []⟩, demoStateInit, some plainUpdate⟩

/-- C111 fails for a specific class with an update method of its own: `__init__` never sees the configuration, and what it
derives from its arguments is derived from the empty object for ever. -/
theorem C111_method_violated :
    let empty := (demoMethod.make (Dict.ofList [("a", 0), ("b", 0)])).toOption
    (demoMethod.first empty (Dict.ofList [("a", 3), ("b", 4)])).toOption.bind (· "a") = some 3 ∧
    (demoMethod.first empty (Dict.ofList [("a", 3), ("b", 4)])).toOption.bind (· "total") = some 0 ∧
    (demoMethod.make (Dict.ofList [("a", 3), ("b", 4)])).toOption.bind (· "total") = some 7 := by
  decide +kernel

/-- `__init__` that sets `a` only if it is given and counts how often it was called. -/
def countInit : Method Nat := fun d a =>
  let a1 := match d.get? "a" with
    | some v => a.put "a" v
    | none => a
  (.ok (), a1.put "calls" ((a "calls").getD 0 + 1))

/-- A class with this `__init__`. -/
def demoCount : ObjClass Nat := ⟨⟨["self", "a"], [], []⟩, countInit, none⟩

/-- C111 fails for a class whose `__init__` looks at the object: a value the configuration no longer has stays, and the object
knows that it has been initialised before. -/
theorem C111_state_violated :
    let a := [ObjEvent.config (Dict.ofList [("a", 1)]), .config Dict.empty].foldl (ObjEvent.step demoCount) Attrs.blank
    a "a" = some 1 ∧ a "calls" = some 2 ∧
    (demoCount.make Dict.empty).toOption.bind (· "a") = none ∧
    (demoCount.make Dict.empty).toOption.bind (· "calls") = some 1 := by
  decide +kernel

/-- An update method that takes anything. -/
def anyUpdate : Method Nat := fun d a => (.ok (), fun x => (d.get? x).or (a x))

/-- C111 fails for what only the update method takes: it is not passed on. -/
theorem C111_extra_violated :
    (anyUpdate (Dict.ofList [("a", 1), ("z", 2)]) Attrs.blank).2 "z" = some 2 ∧
    ((ObjClass.mk ⟨["self", "a", "b"], [], []⟩ demoStateInit (some anyUpdate)).applyConfig (Dict.ofList [("a", 1), ("z", 2)])
      Attrs.blank).2 "z" = none ∧
    ((ObjClass.mk ⟨["self", "a", "b"], [], []⟩ demoStateInit (some anyUpdate)).applyConfig (Dict.ofList [("a", 1), ("z", 2)])
      Attrs.blank).2 "a" = some 1 := by
  decide +kernel

end Verif.Props
