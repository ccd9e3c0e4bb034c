import Verif.Model.MethodView
import Verif.Props.ItemView

/-
C68 for views of methods and of other attributes of objects: what calling them comes to, and that for views of items the model is the
one of `Verif/Model/View.lean`.
-/

namespace Verif.Props
open Verif.Py Verif.Model

variable {V : Type}

theorem thingFrom_append (attr : Obj V → String → Except PyErr (ViewThing V)) (xs ys : List String) :
    ∀ (t : ViewThing V) (s : AS V), thingFrom attr t (xs ++ ys) s = (thingFrom attr t xs >>= fun t' => thingFrom attr t' ys) s := by
  induction xs with
  | nil => intro t s; rw [M.bind_ok (s' := s) (a := t) (by cases t <;> simp [thingFrom] <;> rfl)]; rfl
  | cons x xs ih =>
    intro t s
    rw [List.cons_append]
    match t with
    | .res .runner =>
      simp only [thingFrom]
      rw [M.bind_run, M.bind_run, M.bind_run]
      cases h : AM.runnerAttr x s with
      | mk r s' => cases r with
        | error e => rfl
        | ok r => simp only; rw [ih, M.bind_run]
    | .res (.got (.obj o)) =>
      simp only [thingFrom]
      rw [M.bind_run, M.bind_run, M.bind_run]
      cases h : attr o x with
      | error e => rfl
      | ok r => simp only [M.liftE_run]; rw [ih, M.bind_run]
    | .res .own => rfl
    | .res (.got (.list _)) => rfl
    | .res (.got (.dict _)) => rfl
    | .bound _ _ => rfl
    | .klass => rfl
    | .value _ => rfl

/-- What an attribute access gives in the model of views of items, it gives in this one. -/
theorem thingFrom_res (attr : Obj V → String → Except PyErr (ViewThing V)) (xs : List String) :
    ∀ (r : AttrRes V) (s : AS V), (AM.accessFrom r xs s).1 ≠ .error .attributeError →
      thingFrom attr (.res r) xs s = ((AM.accessFrom r xs s).1.map .res, (AM.accessFrom r xs s).2) := by
  induction xs with
  | nil => intro r s _; cases r <;> rfl
  | cons x xs ih =>
    intro r s h
    match r with
    | .runner =>
      simp only [thingFrom, AM.accessFrom] at h ⊢
      rw [M.bind_run] at h ⊢
      rw [M.bind_run]
      cases hx : AM.runnerAttr x s with
      | mk r s' => cases r with
        | error e => rfl
        | ok r => rw [hx] at h; exact ih r s' h
    | .own => exact absurd rfl h
    | .got (.obj _) => exact absurd rfl h
    | .got (.list _) => exact absurd rfl h
    | .got (.dict _) => exact absurd rfl h

theorem thing_res (attr : Obj V → String → Except PyErr (ViewThing V)) (xs : List String) (s : AS V)
    (h : (AM.access xs s).1 ≠ .error .attributeError) :
    thing attr xs s = ((AM.access xs s).1.map .res, (AM.access xs s).2) := by
  cases xs with
  | nil => exact absurd rfl h
  | cons x xs =>
    simp only [thing, AM.access] at h ⊢
    rw [M.bind_run] at h ⊢
    rw [M.bind_run]
    cases hx : AM.managerAttr x s with
    | mk r s' => cases r with
      | error e => rfl
      | ok r => rw [hx] at h; exact thingFrom_res attr xs r s' h

theorem realThing_res (attr : Obj V → String → Except PyErr (ViewThing V)) (path : String) (s : VS V)
    (h : (realItem path s).1 ≠ .error .attributeError) :
    realThing attr path s = ((realItem path s).1.map .res, (realItem path s).2) := by
  unfold realThing realItem at *
  cases hv : (SectionPath.mk path).sections with
  | nil => rfl
  | cons m rest =>
    rw [hv] at h
    simp only at h ⊢
    unfold VM.on at h ⊢
    cases hm : AList.get? s m with
    | none => rfl
    | some a =>
      rw [hm] at h
      simp only at h ⊢
      rw [thing_res attr _ a h]

theorem thing_append (attr : Obj V → String → Except PyErr (ViewThing V)) (xs ys : List String) (hne : xs ≠ []) (s : AS V) :
    thing attr (xs ++ ys) s = (thing attr xs >>= fun t => thingFrom attr t ys) s := by
  cases xs with
  | nil => exact absurd rfl hne
  | cons x xs =>
    rw [List.cons_append]
    simp only [thing]
    rw [M.bind_run, M.bind_run, M.bind_run]
    cases hx : AM.managerAttr x s with
    | mk r s' => cases r with
      | error e => rfl
      | ok r => simp only; rw [thingFrom_append, M.bind_run]

/-- C68. Where the model of the calls of views of items does not give up at an attribute of an item, this one says the same: the same
call or exception, and the same managers afterwards. -/
theorem C68_attributes_refine (cls : Classes V) (attr : Obj V → String → Except PyErr (ViewThing V))
    (managers : List (String × List ClassColl)) (path : String) (s : VS V)
    (h : (viewCall cls managers path s).1 ≠ .error .attributeError) :
    viewCallAny cls attr managers path s = ((viewCall cls managers path s).1.map .item, (viewCall cls managers path s).2) := by
  unfold viewCallAny viewCall at *
  rw [M.bind_run] at h ⊢
  rw [M.bind_run]
  have hne : (realItem path s).1 ≠ .error .attributeError := by
    intro hh
    cases hr : realItem path s with
    | mk r s' =>
      rw [hr] at hh h
      simp only at hh
      subst hh
      exact h rfl
  rw [realThing_res attr path s hne]
  cases hr : realItem path s with
  | mk r s' => cases r with
    | error e => rfl
    | ok r =>
      rw [hr] at h
      simp only [Except.map] at h ⊢
      cases hv : (SectionPath.mk path).sections with
      | nil => rfl
      | cons m rest => cases rest with
        | nil => rfl
        | cons x rest =>
          rw [hv] at h
          simp only at h ⊢
          match r with
          | .own => exact absurd rfl h
          | .got (.list _) => exact absurd rfl h
          | .got (.dict _) => exact absurd rfl h
          | .runner =>
            simp only
            cases hon : VM.on .noManager m (AM.runnerAttr "__self__") s' with
            | mk r s'' => cases r with
              | ok _ => rfl
              | error e => cases e <;> rfl
          | .got (.obj o) =>
            simp only
            split
            · rfl
            · split
              · cases AList.get? (classMap managers) (cls.of o) <;> rfl
              · rfl

/-- What the names after an item lead to: `getattr` of objects, one after the other. -/
inductive AttrLeads (attr : Obj V → String → Except PyErr (ViewThing V)) : Obj V → List String → ViewThing V → Prop where
  | one {o : Obj V} {x : String} {t : ViewThing V} (h : attr o x = .ok t) : AttrLeads attr o [x] t
  | more {o o' : Obj V} {x : String} {xs : List String} {t : ViewThing V} (h : attr o x = .ok (.res (.got (.obj o'))))
      (hs : AttrLeads attr o' xs t) : AttrLeads attr o (x :: xs) t

theorem thingFrom_leads {attr : Obj V → String → Except PyErr (ViewThing V)} {o : Obj V} {xs : List String} {t : ViewThing V}
    (h : AttrLeads attr o xs t) (s : AS V) : thingFrom attr (.res (.got (.obj o))) xs s = (.ok t, s) := by
  induction h with
  | one h =>
    simp only [thingFrom]
    rw [h]
    exact (by cases ‹ViewThing V› <;> rfl)
  | more h _ ih =>
    simp only [thingFrom]
    rw [h]
    exact ih

theorem realThing_leads {attr : Obj V → String → Except PyErr (ViewThing V)} {s : VS V} {path m : String} {p ns : List String}
    (hv : (SectionPath.mk path).sections = m :: (p ++ ns)) {a : AS V} (ha : AList.get? s m = some a) (hclean : a.full = "")
    {k : Callable V} (hp : AttrItem a.rs.reg p k) {o : Obj V} {rs' : RS V} (hget : RM.get p a.rs = (.ok (.obj o), rs')) {t : ViewThing V}
    (ht : AttrLeads attr o ns t) : realThing attr path s = (.ok t, AList.set s m ⟨rs', ""⟩) := by
  have hne : p ++ ns ≠ [] := by
    intro hh
    exact hp.sections.1 (List.append_eq_nil_iff.1 hh).1
  have hacc := C25_access_partial a hclean p k hp
  rw [hget] at hacc
  have hth : thing attr (p ++ ns) a = (.ok t, ⟨rs', ""⟩) := by
    rw [thing_append attr p ns hp.sections.1, M.bind_run, thing_res attr p a (by rw [hacc]; intro hh; cases hh), hacc]
    exact thingFrom_leads ht _
  unfold realThing
  rw [hv]
  simp only
  rw [belowManager_eq hv hne, on_some ha, hth]

/-- C68 for views of attributes of an item, for every structure of collections, and every path of names below an item.  If they lead to a
bound method of an object, that method is called, if the object is of a class of some collection of some manager or of a subclass of one;
otherwise, and for class methods and classes, there is a `ValueError` and nothing is called.  Other values, like the function of a static
method, are returned without a call if an attribute can be set on them, and otherwise there is an `AttributeError`.  The managers are as
`get` of the item leaves them. -/
theorem C68_attributes (cls : Classes V) (attr : Obj V → String → Except PyErr (ViewThing V)) (managers : List (String × List ClassColl))
    (s : VS V) (path m : String) (p ns : List String) (hv : (SectionPath.mk path).sections = m :: (p ++ ns)) (a : AS V)
    (ha : AList.get? s m = some a) (hclean : a.full = "") (k : Callable V) (hp : AttrItem a.rs.reg p k) (o : Obj V) (rs' : RS V)
    (hget : RM.get p a.rs = (.ok (.obj o), rs')) (t : ViewThing V) (ht : AttrLeads attr o ns t) :
    let after := AList.set s m ⟨rs', ""⟩
    let specific := fun o' => ∃ c ∈ allColls managers, cls.sub (cls.of o') c.klass = true
    (∀ o' n, t = .bound (some o') n → specific o' → viewCallAny cls attr managers path s = (.ok (.item (.method o' n)), after)) ∧
    (∀ o' n, t = .bound (some o') n → ¬ specific o' → viewCallAny cls attr managers path s = (.error .valueError, after)) ∧
    (∀ n, t = .bound none n → viewCallAny cls attr managers path s = (.error .valueError, after)) ∧
    (t = .klass → viewCallAny cls attr managers path s = (.error .valueError, after)) ∧
    (t = .value true → viewCallAny cls attr managers path s = (.ok .value, after)) ∧
    (t = .value false → viewCallAny cls attr managers path s = (.error .attributeError, after)) := by
  intro after specific
  obtain ⟨x, rest, hx⟩ := List.exists_cons_of_ne_nil hp.sections.1
  have hr := realThing_leads hv ha hclean hp hget ht
  have hv' : (SectionPath.mk path).sections = m :: x :: (rest ++ ns) := by rw [hv, hx]; rfl
  unfold viewCallAny
  rw [M.bind_ok hr, hv']
  refine ⟨?_, ?_, ?_, ?_, ?_, ?_⟩
  · rintro o' n rfl h
    simp only
    rw [if_pos ((classMap_any managers (fun n => cls.sub (cls.of o') n)).2 h)]
    rfl
  · rintro o' n rfl h
    simp only
    rw [if_neg (fun hh => h ((classMap_any managers (fun n => cls.sub (cls.of o') n)).1 hh))]
    rfl
  · rintro n rfl; rfl
  · rintro rfl; rfl
  · rintro rfl; rfl
  · rintro rfl; rfl

/-- C68. If an object below an item is named, for which `specific` collections exist, calling the view calls the method of the last
collection with exactly its class, as for items; what counts is the name after the manager, not where the object is from. -/
theorem C68_attribute_object (cls : Classes V) (attr : Obj V → String → Except PyErr (ViewThing V))
    (managers : List (String × List ClassColl)) (s : VS V) (path m x : String) (rest ns : List String)
    (hv : (SectionPath.mk path).sections = m :: (x :: rest ++ ns)) (a : AS V) (ha : AList.get? s m = some a) (hclean : a.full = "")
    (k : Callable V) (hp : AttrItem a.rs.reg (x :: rest) k) (o : Obj V) (rs' : RS V)
    (hget : RM.get (x :: rest) a.rs = (.ok (.obj o), rs')) (o' : Obj V) (ht : AttrLeads attr o ns (.res (.got (.obj o')))) :
    let after := AList.set s m ⟨rs', ""⟩
    let inColl := x = "general" ∨ ∃ c ∈ (AList.get? managers m).getD [], c.name = x
    let above := ∃ c ∈ allColls managers, cls.sub (cls.of o') c.klass = true
    (o'.isPartial = true → viewCallAny cls attr managers path s = (.ok (.item (.func o')), after)) ∧
    (o'.isPartial = false → inColl ∧ above → ∀ c, lastOfClass (allColls managers) (cls.of o') = some c →
      viewCallAny cls attr managers path s = (.ok (.item (.method o' c.execute)), after)) ∧
    (o'.isPartial = false → inColl ∧ above → (∀ c ∈ allColls managers, c.klass ≠ cls.of o') →
      viewCallAny cls attr managers path s = (.error .keyError, after)) ∧
    (o'.isPartial = false → ¬ (inColl ∧ above) → viewCallAny cls attr managers path s = (.ok (.item (.object o')), after)) := by
  intro after inColl above
  have hr := realThing_leads hv ha hclean hp hget ht
  have hin : (x ∈ "general" :: ((AList.get? managers m).getD []).map ClassColl.name) ↔ inColl := by
    simp [inColl]
  have hab := classMap_any managers (fun n => cls.sub (cls.of o') n)
  have hmap : AList.get? (classMap managers) (cls.of o') = lastOfClass (allColls managers) (cls.of o') :=
    get?_classMap managers (cls.of o')
  have hv' : (SectionPath.mk path).sections = m :: x :: (rest ++ ns) := hv
  unfold viewCallAny
  rw [M.bind_ok hr, hv']
  refine ⟨fun ho => ?_, fun ho h c hc => ?_, fun ho h hn => ?_, fun ho h => ?_⟩
  · simp only [ho, if_true]; rfl
  · simp only [ho]
    rw [if_neg (by simp), if_pos (by simp only [Bool.and_eq_true, decide_eq_true_eq]; exact ⟨hin.2 h.1, hab.2 h.2⟩), hmap, hc]
    rfl
  · have : lastOfClass (allColls managers) (cls.of o') = none := by
      cases hl : lastOfClass (allColls managers) (cls.of o') with
      | none => rfl
      | some c => exact absurd (lastOfClass_some hl).2 (hn c (lastOfClass_some hl).1)
    simp only [ho]
    rw [if_neg (by simp), if_pos (by simp only [Bool.and_eq_true, decide_eq_true_eq]; exact ⟨hin.2 h.1, hab.2 h.2⟩), hmap, this]
    rfl
  · simp only [ho]
    rw [if_neg (by simp), if_neg (by
      simp only [Bool.and_eq_true, decide_eq_true_eq]
      exact fun hh => h ⟨hin.1 hh.1, hab.1 hh.2⟩)]
    rfl

/-- C68. If a name below an item is not there, or reading it fails, calling the view fails in that way, and calls nothing. -/
theorem C68_attribute_failure (cls : Classes V) (attr : Obj V → String → Except PyErr (ViewThing V))
    (managers : List (String × List ClassColl)) (s : VS V) (path m : String) (p : List String) (x : String)
    (hv : (SectionPath.mk path).sections = m :: (p ++ [x])) (a : AS V) (ha : AList.get? s m = some a) (hclean : a.full = "")
    (k : Callable V) (hp : AttrItem a.rs.reg p k) (o : Obj V) (rs' : RS V) (hget : RM.get p a.rs = (.ok (.obj o), rs')) (e : PyErr)
    (he : attr o x = .error e) : viewCallAny cls attr managers path s = (.error e, AList.set s m ⟨rs', ""⟩) := by
  have hne : p ++ [x] ≠ [] := by simp
  have hacc := C25_access_partial a hclean p k hp
  rw [hget] at hacc
  have hth : thing attr (p ++ [x]) a = (.error e, ⟨rs', ""⟩) := by
    rw [thing_append attr p [x] hp.sections.1, M.bind_run, thing_res attr p a (by rw [hacc]; intro hh; cases hh), hacc]
    show thingFrom attr (.res (.got (.obj o))) [x] _ = _
    simp only [thingFrom]
    rw [he]
    rfl
  have hr : realThing attr path s = (.error e, AList.set s m ⟨rs', ""⟩) := by
    unfold realThing
    rw [hv]
    simp only
    rw [belowManager_eq hv hne, on_some ha, hth]
  unfold viewCallAny
  rw [M.bind_run, hr]

/-! ### A concrete project -/

/-- A class with a method, a static method, a class method and a number. -/
def toyAttr (o : Obj Nat) (x : String) : Except PyErr (ViewThing Nat) :=
  if x = "show" then .ok (.bound (some o) "show")
  else if x = "static" then .ok (.value true)
  else if x = "make" then .ok (.bound none "make")
  else if x = "number" then .ok (.value false)
  else if x = "twin" then .ok (.res (.got (.obj o)))
  else .error .attributeError

/-- What is called, or the exception. -/
def calledAnyName (x : Except PyErr (CalledAny Nat)) : String :=
  match x with
  | .ok (.item (.method _ n)) => n
  | .ok (.item (.object _)) => "object"
  | .ok (.item (.func _)) => "func"
  | .ok (.item .runner) => "runner"
  | .ok .value => "returned"
  | .error .valueError => "ValueError"
  | .error .attributeError => "AttributeError"
  | .error _ => "error"

/-- The hypotheses of the theorems are met. -/
example : AttrItem toyCallManager.rs.reg ["A", "x"] toyObject ∧
    (SectionPath.mk "pm.A.x.twin.show").sections = "pm" :: (["A", "x"] ++ ["twin", "show"]) ∧
    (∀ o, AttrLeads toyAttr o ["twin", "show"] (.bound (some o) "show")) ∧
    calledAnyName (viewCallAny oneClass toyAttr [("pm", [⟨"A", 0, "run_a"⟩])] "pm.A.x.twin.show" [("pm", toyCallManager)]).1 = "show" ∧
    calledAnyName (viewCallAny oneClass toyAttr [("pm", [⟨"A", 0, "run_a"⟩])] "pm.A.x.twin" [("pm", toyCallManager)]).1 = "run_a" ∧
    calledAnyName (viewCallAny oneClass toyAttr [("pm", [⟨"A", 0, "run_a"⟩])] "pm.A.x" [("pm", toyCallManager)]).1 = "run_a" ∧
    calledAnyName (viewCallAny oneClass toyAttr [("pm", [⟨"A", 0, "run_a"⟩])] "pm.A.x.none" [("pm", toyCallManager)]).1 =
      "AttributeError" :=
  ⟨⟨⟨by decide, by decide⟩, rfl, by decide, by decide⟩, by decide +kernel, fun _ => .more rfl (.one rfl), by decide +kernel,
    by decide +kernel, by decide +kernel, by decide +kernel⟩

/-- C68 fails for static methods and class methods of objects of specific classes: the view of a static method returns the function and
drops the arguments, and that of a class method raises. -/
theorem C68_static_method_violated :
    calledAnyName (viewCallAny oneClass toyAttr [("pm", [⟨"A", 0, "run_a"⟩])] "pm.A.x.static" [("pm", toyCallManager)]).1 = "returned" ∧
    calledAnyName (viewCallAny oneClass toyAttr [("pm", [⟨"A", 0, "run_a"⟩])] "pm.A.x.make" [("pm", toyCallManager)]).1 =
      "ValueError" := by
  decide +kernel

/-- C68 fails for methods of objects of classes of the general registrar: a `ValueError`; unless some collection has that class. -/
theorem C68_general_method_violated :
    calledAnyName (viewCallAny oneClass toyAttr [("pm", [])] "pm.C.show" [("pm", toyCallManager)]).1 = "ValueError" ∧
    calledAnyName (viewCallAny oneClass toyAttr [("pm", []), ("other", [⟨"D", 0, "run_d"⟩])] "pm.C.show" [("pm", toyCallManager)]).1 =
      "show" := by
  decide +kernel

end Verif.Props
