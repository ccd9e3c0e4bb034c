import Verif.Model.ViewType
import Verif.Props.ItemView
import Verif.Props.Selector
import Verif.Props.Session

/-
Property theorems about the types of item views: C85.
-/

namespace Verif.Props
open Verif.Py Verif.Model

variable {V : Type}

/-! ### Specification -/

/-- The registered name of every specific class is given once, and is not the one selectors use for the general registrar. -/
structure DistinctClasses (r : Registry V) : Prop where
  nodup : (r.specific.map Prod.fst).Nodup
  general : "_general" ∉ r.specific.map Prod.fst

/-- The view at the path has the type of what it stands for. -/
def SameType (sel : Sel V) (s : VS V) (path : String) : Prop :=
  ∀ r, (realItem path s).1 = .ok r → viewType sel path = .ok (.type (typeOfReal r))

/-! ### Lemmas -/

theorem got_of_walk {p : List String} : ∀ {res : List String} {n n' : Reg V}, (∀ x ∈ collectionReserved, x ∈ res) →
    n.walk res p = .ok n' → n' ≠ .other → (Got.node n).get p = .ok (.node n') := by
  induction p with
  | nil =>
    intro res n n' _ h _
    rw [Reg.walk] at h
    cases h
    rfl
  | cons x p ih =>
    intro res n n' hres h hne
    rw [Reg.walk] at h
    split at h
    · cases h
    · next n1 h1 =>
      cases n with
      | item k => cases h1
      | other => cases h1
      | coll b items =>
        rw [Reg.attr] at h1
        split at h1
        · cases h1
          cases p with
          | nil =>
            rw [Reg.walk] at h
            cases h
            exact absurd rfl hne
          | cons y p =>
            rw [Reg.walk] at h
            cases h
        · next hx =>
          rw [Got.get, Got.attr, if_neg (fun hc => hx (hres x hc))]
          split at h1
          · next n2 h2 =>
            cases h1
            rw [h2]
            exact ih (fun y hy => hy) h hne
          · cases h1

theorem find_get {W : Type} (l : List (String × W)) (x : String) (h : (l.map Prod.fst).Nodup) :
    (l.find? (fun e => e.1 = x)).map Prod.snd = AList.get? l.reverse x := by
  have hrev : AList.get? l.reverse x = AList.get? l x := by
    cases hx : AList.get? l x with
    | none =>
      rw [AList.get?_eq_none_iff] at hx ⊢
      rw [List.map_reverse, List.mem_reverse]
      exact hx
    | some v =>
      apply AList.get?_of_mem
      · rw [List.map_reverse]
        exact (List.reverse_perm _).nodup_iff.2 h
      · exact List.mem_reverse.2 (AList.mem_of_get? hx)
  rw [hrev]
  clear h hrev
  induction l with
  | nil => rfl
  | cons e l ih =>
    obtain ⟨a, b⟩ := e
    rw [List.find?_cons, AList.get?]
    by_cases ha : a = x
    · simp [ha]
    · simp only [ha, decide_false, if_false]
      exact ih

/-- The selector finds what the runner finds. -/
theorem selected_of_lookup {sel : Sel V} {m : String} {r : Registry V} (hm : AList.get? sel m = some r) (hd : DistinctClasses r)
    {x : String} {q : List String} {n : Reg V} (hl : r.lookup (x :: q) = .ok n) (hne : n ≠ .other) :
    (selCollection sel (m :: x :: q) = .ok none ∧ q = [] ∧ x ∈ r.specific.map Prod.fst) ∨
    ∃ c p, selCollection sel (m :: x :: q) = .ok (some (c, p)) ∧ (Got.node c).get p = .ok (.node n) := by
  have hres : ∀ y ∈ collectionReserved, y ∈ registrarReserved := fun y hy => List.mem_append_right _ hy
  rw [Registry.lookup] at hl
  rw [selCollection, hm]
  simp only
  cases hf : r.specific.find? (fun e => e.1 = x) with
  | some e =>
    obtain ⟨a, reg⟩ := e
    have hx : x ∈ r.specific.map Prod.fst := by
      have h1 := List.find?_some hf
      have h2 := List.mem_of_find?_eq_some hf
      exact List.mem_map.2 ⟨_, h2, by simpa using h1⟩
    rw [if_pos hx]
    cases q with
    | nil => exact Or.inl ⟨rfl, rfl, hx⟩
    | cons y q =>
      right
      rw [hf] at hl
      simp only at hl
      obtain ⟨c, h1, h2⟩ := structure_specific hx
      have h3 := find_get r.specific x hd.nodup
      rw [hf, h1] at h3
      simp only [Option.map_some] at h3
      cases h3
      exact ⟨reg, y :: q, by simp only; rw [h2], got_of_walk hres hl hne⟩
  | none =>
    have hx : x ∉ r.specific.map Prod.fst := by
      intro hc
      obtain ⟨e, he, hex⟩ := List.mem_map.1 hc
      have := List.find?_eq_none.1 hf e he
      simp [hex] at this
    rw [if_neg hx]
    rw [hf] at hl
    simp only at hl
    right
    refine ⟨r.general, x :: q, by rw [structure_general hd.general], ?_⟩
    apply got_of_walk hres _ hne
    split at hl
    · cases hl
    · exact hl

theorem viewType_item {sel : Sel V} {m : String} {r : Registry V} (hm : AList.get? sel m = some r) (hd : DistinctClasses r)
    {p : List String} {k : Callable V} (hl : r.lookup p = .ok (.item k)) (hc : ∀ e ∈ r.specific, e.2.isColl = true)
    {path : String} (hp : (SectionPath.mk path).sections = m :: p) :
    viewType sel path = .ok (.type (typeOfGot (.node (.item k)))) := by
  cases p with
  | nil => cases hl
  | cons x q =>
    unfold viewType
    rw [hp]
    rcases selected_of_lookup hm hd hl (by simp) with ⟨_, rfl, hx⟩ | ⟨c, p, h1, h2⟩
    · exfalso
      rw [Registry.lookup] at hl
      cases hf : r.specific.find? (fun e => e.1 = x) with
      | some e =>
        rw [hf] at hl
        have := hc e (List.mem_of_find?_eq_some hf)
        obtain ⟨a, reg⟩ := e
        simp only [Except.ok.injEq] at hl
        rw [hl] at this
        cases this
      | none =>
        obtain ⟨e, he, hex⟩ := List.mem_map.1 hx
        have := List.find?_eq_none.1 hf e he
        simp [hex] at this
    · rw [h1]
      simp only
      rw [h2]

/-- What `get` gives for an item. -/
theorem got_object [BEq V] {s : RS V} (hs : s.Reachable) {p : List String} {k : Callable V} (hl : s.reg.lookup p = .ok (.item k))
    (ho : ∀ o, created s p = some o → (o.isPartial = true ↔ k.kind = .func)) {g : RM.GetRes V} (hg : (RM.get p s).1 = .ok g) :
    ∃ o, g = .obj o ∧ o.callable = k ∧ (o.isPartial = true ↔ k.kind = .func) := by
  have hobj : ∃ o, g = .obj o := by
    rw [RM.get_item hl, M.bind_run] at hg
    cases h : RM.getItem p k s with
    | mk r s' =>
      rw [h] at hg
      cases r with
      | error e => cases hg
      | ok o => cases hg; exact ⟨o, rfl⟩
  obtain ⟨o, rfl⟩ := hobj
  refine ⟨o, rfl, ?_⟩
  cases hn : created s p with
  | some o' =>
    have hcall : o'.callable = k := by
      have := hs.inv.reg p o' hn
      rw [hl] at this
      cases this
      rfl
    have : o = o' := by
      have hn' : s.objs.get? p = some o' := hn
      have hgi : RM.getItem p k s = (.ok o', s) := by
        unfold RM.getItem
        cases k.kind with
        | func => simp only; unfold RM.getOneFunc; rw [M.bind_ok (M.get_run s), hn']; rfl
        | klass => simp only; unfold RM.getOneObj; rw [M.bind_ok (M.get_run s), hn']; rfl
        | specific => simp only; unfold RM.getOneObj; rw [M.bind_ok (M.get_run s), hn']; rfl
      rw [RM.get_item hl, M.bind_ok hgi] at hg
      cases hg
      rfl
    subst this
    exact ⟨hcall, ho o hn⟩
  | none =>
    refine ⟨get_callable hl hn hg, ?_⟩
    have hlk : RM.lookup p s = (.ok (.item k), s) := by
      show (s.reg.lookup p, s) = _
      rw [hl]
    have key : ∀ {d : Dict String V} {s' : RS V} {r : Reg V}, RM.funcAndConfig p s = (.ok (r, d), s') → r = .item k := by
      intro d s' r h
      obtain ⟨c', _, _, h3, _⟩ := RM.funcAndConfig_ok h
      rw [hl] at h3
      cases h3
      rfl
    rw [RM.get_item hl, M.bind_run] at hg
    have hcon : ∀ {id : Nat} {d : Dict String V} {o : Obj V}, RM.construct id k d = .ok o → k.kind ≠ .func → o.isPartial = false := by
      intro id d o h hk
      unfold RM.construct at h
      cases hkk : k.kind with
      | func => exact absurd hkk hk
      | klass => rw [hkk] at h; simp only at h; split at h <;> (try cases h); split at h <;> cases h; rfl
      | specific =>
        rw [hkk] at h
        exact (RM.applyConfig_same h).1.isPartial
    cases hgi : RM.getItem p k s with
    | mk r s' =>
      rw [hgi] at hg
      cases r with
      | error e => cases hg
      | ok o' =>
        cases hg
        by_cases hk : k.kind = .func
        · unfold RM.getItem RM.getOneFunc at hgi
          rw [hk] at hgi
          simp only at hgi
          rw [M.bind_ok (M.get_run s), show s.objs.get? p = none from hn] at hgi
          simp only at hgi
          rw [M.bind_run] at hgi
          cases hfc : RM.funcAndConfig p s with
          | mk r s1 =>
            rw [hfc] at hgi
            cases r with
            | error e => simp only at hgi; cases hgi
            | ok r =>
              obtain ⟨rg, d⟩ := r
              cases key hfc
              simp only at hgi
              rw [M.bind_ok (M.get_run s1)] at hgi
              have h' := congrArg Prod.fst hgi
              cases h'
              exact ⟨fun _ => hk, fun _ => rfl⟩
        · have hgi' : RM.getOneObj p s = (.ok o, s') := by
            rw [← hgi]
            unfold RM.getItem
            cases hkk : k.kind with
            | func => exact absurd hkk hk
            | klass => rfl
            | specific => rfl
          unfold RM.getOneObj at hgi'
          rw [M.bind_ok (M.get_run s), show s.objs.get? p = none from hn] at hgi'
          simp only at hgi'
          rw [M.bind_ok hlk, M.bind_run] at hgi'
          cases hfc : RM.funcAndConfig p s with
          | mk r s1 =>
            rw [hfc] at hgi'
            cases r with
            | error e => simp only at hgi'; cases hgi'
            | ok r =>
              obtain ⟨rg, d⟩ := r
              cases key hfc
              simp only at hgi'
              rw [M.bind_ok (M.get_run s1), M.bind_run, M.liftE_run] at hgi'
              cases hcs : RM.construct s1.nextId k d with
              | error e => rw [hcs] at hgi'; simp only at hgi'; cases hgi'
              | ok o1 =>
                rw [hcs] at hgi'
                have h' := congrArg Prod.fst hgi'
                cases h'
                rw [hcon hcs hk]
                simp [hk]

theorem realItem_eq {s : VS V} {path m : String} {p : List String} (hv : (SectionPath.mk path).sections = m :: p) (hne : p ≠ [])
    {a : AS V} (ha : AList.get? s m = some a) : (realItem path s).1 = (AM.access p a).1 := by
  unfold realItem
  rw [hv]
  simp only
  rw [belowManager_eq hv hne, on_some ha]

theorem asAttr_got {r : Except PyErr (RM.GetRes V)} {x : AttrRes V} (h : asAttr r = .ok x) : ∃ g, r = .ok g ∧ x = .got g := by
  cases r with
  | error e => cases h
  | ok g => cases h; exact ⟨g, rfl, rfl⟩

/-! ## C85 -/

/-- The view of a class, or of an object of a specific class, has the type of the object it stands for, in every state reached by
calls of the manager, if there is no object yet or it was not created as part of its section; the selector being one made for the
collections the manager has (missing: functions and sections, below, and selectors made earlier, C84). -/
theorem C85_class_partial [BEq V] (sel : Sel V) (s : VS V) (path m : String) (p : List String)
    (hv : (SectionPath.mk path).sections = m :: p) (a : AS V) (ha : AList.get? s m = some a) (hclean : a.full = "")
    (hs : a.rs.Reachable) (hsel : AList.get? sel m = some a.rs.reg) (hd : DistinctClasses a.rs.reg)
    (hc : ∀ e ∈ a.rs.reg.specific, e.2.isColl = true) (k : Callable V) (hp : AttrItem a.rs.reg p k) (hk : k.kind ≠ .func)
    (hpart : ∀ o, created a.rs p = some o → o.isPartial = false) :
    viewType sel path = .ok (.type (.klass k)) ∧ SameType sel s path := by
  have hne := hp.sections.1
  have hty : viewType sel path = .ok (.type (.klass k)) := by
    rw [viewType_item hsel hd hp.registered hc hv, typeOfGot]
    cases hkk : k.kind with
    | func => exact absurd hkk hk
    | klass => rfl
    | specific => rfl
  refine ⟨hty, fun r hr => ?_⟩
  rw [hty]
  rw [realItem_eq hv hne ha, C25_access_partial a hclean p k hp] at hr
  obtain ⟨g, hg, rfl⟩ := asAttr_got hr
  obtain ⟨o, rfl, hcall, hiff⟩ := got_object hs hp.registered
    (fun o ho => by rw [hpart o ho]; simp [hk]) hg
  have : o.isPartial = false := by
    cases h : o.isPartial with
    | false => rfl
    | true => exact absurd (hiff.1 h) hk
  rw [typeOfReal, this, hcall]
  rfl

/-- What is not registered has no type: a view of it raises an `AttributeError` when asked for its type; for a manager that is
there and paths without names of attributes of collections.  (An entry that is neither an item nor a section does have one.) -/
theorem C85_missing (sel : Sel V) (m : String) (q : List String) (r : Registry V) (hm : AList.get? sel m = some r)
    (hg : "_general" ∉ r.specific.map Prod.fst) (hq : ∀ x ∈ q, x ∉ collectionReserved) (path : String)
    (hp : (SectionPath.mk path).sections = m :: q) :
    (HasItem r q → ∃ t, viewType sel path = .ok t) ∧
    (¬ HasItem r q → viewType sel path = .error .attributeError ∨ viewType sel path = .ok (.type .other)) := by
  have fin : ∀ (c : Reg V) (p : List String), (∀ x ∈ p, x ∉ collectionReserved) →
      selCollection sel (m :: q) = .ok (some (c, p)) → (HasItem r q ↔ SelRegistered c p) →
      (HasItem r q → ∃ t, viewType sel path = .ok t) ∧
      (¬ HasItem r q → viewType sel path = .error .attributeError ∨ viewType sel path = .ok (.type .other)) := by
    intro c p hpr hc hiff
    unfold viewType
    rw [hp, hc]
    simp only
    rcases got_get c p hpr with ⟨r', h1, h2⟩ | ⟨h1, h2⟩
    · rw [h1]
      refine ⟨fun _ => ⟨_, rfl⟩, fun h => Or.inr ?_⟩
      cases r' with
      | item k => exact absurd (hiff.2 (h2.1 rfl)) h
      | coll b items => exact absurd (hiff.2 (h2.1 rfl)) h
      | other => rfl
    · rw [h1]
      exact ⟨fun h => absurd (hiff.1 h) h2, fun _ => Or.inl rfl⟩
  cases q with
  | nil =>
    unfold viewType
    rw [hp, selCollection, hm]
    exact ⟨fun _ => ⟨_, rfl⟩, fun h => absurd trivial h⟩
  | cons x q' =>
    by_cases hx : x ∈ r.specific.map Prod.fst
    · cases q' with
      | nil =>
        unfold viewType
        rw [hp, selCollection, hm]
        simp only
        rw [if_pos hx]
        exact ⟨fun _ => ⟨_, rfl⟩, fun h => absurd (by rw [HasItem, if_pos hx]; exact Or.inl rfl) h⟩
      | cons y q' =>
        obtain ⟨c, h1, h2⟩ := structure_specific hx
        refine fin c (y :: q') (fun z hz => hq z (by simp [List.mem_cons.1 hz])) ?_ ?_
        · rw [selCollection, hm]
          simp only
          rw [if_pos hx, h2]
        · rw [HasItem, if_pos hx]
          constructor
          · rintro (h | ⟨c', hc', h⟩)
            · cases h
            · rw [h1] at hc'
              cases hc'
              exact h
          · exact fun h => Or.inr ⟨c, h1, h⟩
    · refine fin r.general (x :: q') hq ?_ ?_
      · rw [selCollection, hm]
        simp only
        rw [if_neg hx, structure_general hg]
      · rw [HasItem, if_neg hx]

/-- C85 does not hold for functions: the view says it is a function, what it stands for is a `functools.partial`; for every
function and every state in which it has not been used yet. -/
theorem C85_function_violated [BEq V] (sel : Sel V) (s : VS V) (path m : String) (p : List String)
    (hv : (SectionPath.mk path).sections = m :: p) (a : AS V) (ha : AList.get? s m = some a) (hclean : a.full = "")
    (hs : a.rs.Reachable) (hsel : AList.get? sel m = some a.rs.reg) (hd : DistinctClasses a.rs.reg)
    (hc : ∀ e ∈ a.rs.reg.specific, e.2.isColl = true) (k : Callable V) (hp : AttrItem a.rs.reg p k) (hk : k.kind = .func)
    (hn : created a.rs p = none) (r : AttrRes V) (hr : (realItem path s).1 = .ok r) :
    viewType sel path = .ok (.type .function) ∧ typeOfReal r = .partial_ ∧ ¬ SameType sel s path := by
  have hne := hp.sections.1
  have hty : viewType sel path = .ok (.type .function) := by
    rw [viewType_item hsel hd hp.registered hc hv, typeOfGot, hk]
  have hreal : typeOfReal r = .partial_ := by
    have hr' := hr
    rw [realItem_eq hv hne ha, C25_access_partial a hclean p k hp] at hr'
    obtain ⟨g, hg, rfl⟩ := asAttr_got hr'
    obtain ⟨o, rfl, hcall, hiff⟩ := got_object hs hp.registered (fun o ho => by rw [hn] at ho; cases ho) hg
    rw [typeOfReal, hiff.2 hk]
    rfl
  refine ⟨hty, hreal, fun h => ?_⟩
  have := h r hr
  rw [hty, hreal] at this
  cases this

/-- C85 does not hold for sections: the view says it is a collection, what it stands for is the runner of the manager. -/
theorem C85_section_violated [BEq V] (sel : Sel V) (s : VS V) (path m x : String)
    (hv : (SectionPath.mk path).sections = [m, x]) (a : AS V) (ha : AList.get? s m = some a) (hclean : a.full = "")
    (hsel : AList.get? sel m = some a.rs.reg) (hd : DistinctClasses a.rs.reg) (b : Bool) (items : List (String × Reg V))
    (hl : a.rs.reg.lookup [x] = .ok (.coll b items)) (hm : x ∉ managerAttrs) (hr : x ∉ runnerAttrs)
    (hx : x ∉ a.rs.reg.specific.map Prod.fst) :
    viewType sel path = .ok (.type (.collection b)) ∧ (realItem path s).1 = .ok .runner ∧ ¬ SameType sel s path := by
  have hty : viewType sel path = .ok (.type (.collection b)) := by
    unfold viewType
    rw [hv]
    rcases selected_of_lookup hsel hd hl (by simp) with ⟨_, _, h⟩ | ⟨c, p, h1, h2⟩
    · exact absurd h hx
    · rw [h1]
      simp only
      rw [h2]
      rfl
  have hdot : hasChar '.' x = false := by
    have := SectionPath.hasDot_sections (SectionPath.mk path)
    rw [hv] at this
    exact this x (by simp)
  have hreal : (realItem path s).1 = .ok .runner := by
    rw [realItem_eq hv (by simp) ha]
    show ((AM.managerAttr x >>= fun r => AM.accessFrom r []) a).1 = _
    have : AM.managerAttr x a = (.ok .runner, ⟨a.rs, x ++ "."⟩) := by
      unfold AM.managerAttr AM.runnerAttr
      rw [if_neg hm, if_neg hr]
      unfold AM.missing
      have hf : (AM.setFull (fun f => f ++ x) : AM V Unit) a = (.ok (), ⟨a.rs, x⟩) := by
        unfold AM.setFull M.modify
        simp only [hclean, String.empty_append]
      rw [M.bind_ok hf, M.bind_ok (M.get_run _)]
      simp only
      rw [split_plain hdot, hl]
      rfl
    rw [M.bind_ok this]
    rfl
  refine ⟨hty, hreal, fun h => ?_⟩
  have := h _ hreal
  rw [hty] at this
  cases this

/-- C85 does not hold for managers and the collections of specific classes: their views say their class is the manager or the
collection itself, which is no type, so they are instances of nothing; for every selector. -/
theorem C85_root_violated (sel : Sel V) (path m : String) (r : Registry V) (hm : AList.get? sel m = some r) (p : List String)
    (hv : (SectionPath.mk path).sections = m :: p) (hp : p = [] ∨ ∃ x, p = [x] ∧ x ∈ r.specific.map Prod.fst) :
    viewType sel path = .ok .object ∧ ∀ sub, isInstance sub (.object : TypeOrObject V) = false := by
  refine ⟨?_, fun _ => rfl⟩
  unfold viewType
  rw [hv, selCollection, hm]
  rcases hp with rfl | ⟨x, rfl, hx⟩
  · rfl
  · simp only
    rw [if_pos hx]

/-- The type a view says it has, and that of what it stands for, as numbers: 0 function, 1 partial, 2 a class, 3 others. -/
def typeNumber : PyType V → Nat
  | .function => 0
  | .partial_ => 1
  | .klass _ => 2
  | _ => 3

/-- Both types of the view of an item, by number. -/
def bothTypes (sel : Sel Nat) (path : String) (s : VS Nat) : Option (Nat × Nat) :=
  match viewType sel path, (realItem path s).1 with
  | .ok (.type t), .ok r => some (typeNumber t, typeNumber (typeOfReal r))
  | _, _ => none

/-- C85 does not hold for a class if its section was got before: the object is then a `functools.partial` (C24). -/
theorem C85_in_section_violated :
    let before : VS Nat := [("pm", ⟨demoRunner demoClass, ""⟩)]
    let after : VS Nat := [("pm", ⟨(RM.get ["main", "data"] (demoRunner demoClass)).2, ""⟩)]
    bothTypes (managersSel before) "pm.main.data.func" before = some (2, 2) ∧
    bothTypes (managersSel after) "pm.main.data.func" after = some (2, 1) := by
  decide +kernel

/-- The hypotheses are met for a class and for a function. -/
example (k : Callable Nat) : AttrItem (smallRunner k).reg ["f"] k ∧ (smallRunner k).Reachable ∧
    DistinctClasses (smallRunner k).reg ∧ created (smallRunner k) ["f"] = none ∧
    AList.get? (managersSel (smallManagers k)) "pm" = some (smallRunner k).reg ∧
    bothTypes (managersSel (smallManagers demoClass)) "pm.f" (smallManagers demoClass) = some (2, 2) ∧
    bothTypes (managersSel (smallManagers demoFunc)) "pm.f" (smallManagers demoFunc) = some (0, 1) :=
  ⟨smallItem _, smallRunner_reachable _, ⟨by simp [smallRunner], by simp [smallRunner]⟩, rfl, rfl, by decide +kernel,
    by decide +kernel⟩

end Verif.Props
