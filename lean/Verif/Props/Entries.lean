import Verif.Model.Locate
import Verif.Props.Imports
import Verif.Props.SectionPath

/-
Property theorems about the import that is written for an object (C62), and about the entries of
definitions (C63).
-/

namespace Verif.Props
open Verif.Py Verif.Model

/-! ## C62 -/

/-- The module has the object, under some name. -/
def Holds (obj : Nat) (m : LoadedModule) : Prop := ∃ x, (x, Except.ok obj) ∈ m.attrs

/-- No attribute of the module raises anything but `AttributeError`. -/
def Quiet (m : LoadedModule) : Prop := ∀ x e, (x, Except.error e) ∈ m.attrs → e = .attributeError

/-- What `from m import x` gives, for modules that are loaded already. -/
def fromImport (modules : List LoadedModule) (m x : String) : Option Nat :=
  match modules.find? (fun k => decide (k.name = m)) with
  | none => none
  | some k =>
    match AList.get? k.attrs x with
    | some (.ok o) => some o
    | _ => none

theorem objInModule_true {obj : Nat} : ∀ {attrs : List (String × Except PyErr Nat)},
    objInModule obj attrs = .ok true → ∃ x, (x, Except.ok obj) ∈ attrs := by
  intro attrs h
  induction attrs with
  | nil => cases h
  | cons a rest ih =>
    match a, h with
    | (x, .ok o), h =>
      rw [objInModule] at h
      by_cases ho : o = obj
      · subst ho
        exact ⟨x, List.mem_cons_self⟩
      · rw [if_neg ho] at h
        obtain ⟨y, hy⟩ := ih h
        exact ⟨y, List.mem_cons_of_mem _ hy⟩
    | (x, .error e), h =>
      cases e <;> simp only [objInModule, reduceCtorEq] at h
      obtain ⟨y, hy⟩ := ih h
      exact ⟨y, List.mem_cons_of_mem _ hy⟩

theorem objInModule_false {obj : Nat} : ∀ {attrs : List (String × Except PyErr Nat)},
    objInModule obj attrs = .ok false → ∀ x, (x, Except.ok obj) ∉ attrs := by
  intro attrs h
  induction attrs with
  | nil => intro x hx; cases hx
  | cons a rest ih =>
    match a, h with
    | (x, .ok o), h =>
      rw [objInModule] at h
      by_cases ho : o = obj
      · rw [if_pos ho] at h
        cases h
      · rw [if_neg ho] at h
        intro y hy
        rcases List.mem_cons.1 hy with hy | hy
        · simp only [Prod.mk.injEq, Except.ok.injEq] at hy
          exact ho hy.2.symm
        · exact ih h y hy
    | (x, .error e), h =>
      cases e <;> simp only [objInModule, reduceCtorEq] at h
      intro y hy
      rcases List.mem_cons.1 hy with hy | hy
      · cases hy
      · exact ih h y hy

theorem objInModule_quiet {obj : Nat} : ∀ {attrs : List (String × Except PyErr Nat)},
    (∀ x e, (x, Except.error e) ∈ attrs → e = .attributeError) → ∃ b, objInModule obj attrs = .ok b := by
  intro attrs h
  induction attrs with
  | nil => exact ⟨false, rfl⟩
  | cons a rest ih =>
    have ih := ih (fun x e hx => h x e (List.mem_cons_of_mem _ hx))
    match a, h with
    | (x, .ok o), h =>
      rw [objInModule]
      by_cases ho : o = obj
      · exact ⟨true, if_pos ho⟩
      · rw [if_neg ho]
        exact ih
    | (x, .error e), h =>
      have := h x e List.mem_cons_self
      subst this
      rw [objInModule]
      exact ih

/-- C62. The module that is found is loaded, is not one of those to be left out, and has the object; no module before it
that is looked at has it. -/
theorem C62_found (obj : Nat) (modules : List LoadedModule) (name : String) (i : Imp)
    (h : createdImport modules obj name = .ok i) :
    ∃ before m after, modules = before ++ m :: after ∧ i = ⟨some m.name, [name], [], false⟩ ∧ shouldSkip m.name = false ∧
      Holds obj m ∧ ∀ k ∈ before, shouldSkip k.name = true ∨ ¬ Holds obj k := by
  unfold createdImport at h
  cases hm : moduleOfObj obj modules with
  | error e => rw [hm] at h; cases h
  | ok r =>
    rw [hm] at h
    cases h
    induction modules with
    | nil => cases hm
    | cons m rest ih =>
      rw [moduleOfObj] at hm
      by_cases hs : shouldSkip m.name = true
      · rw [if_pos hs] at hm
        obtain ⟨before, k, after, he, hi, h1, h2, h3⟩ := ih hm
        refine ⟨m :: before, k, after, by rw [he]; rfl, hi, h1, h2, ?_⟩
        intro l hl
        rcases List.mem_cons.1 hl with rfl | hl
        · exact .inl hs
        · exact h3 l hl
      · rw [if_neg hs] at hm
        cases ho : objInModule obj m.attrs with
        | error e => rw [ho] at hm; cases hm
        | ok b =>
          rw [ho] at hm
          cases b with
          | true =>
            cases hm
            exact ⟨[], m, rest, rfl, rfl, by simpa using hs, objInModule_true ho, fun k hk => by cases hk⟩
          | false =>
            obtain ⟨before, k, after, he, hi, h1, h2, h3⟩ := ih hm
            refine ⟨m :: before, k, after, by rw [he]; rfl, hi, h1, h2, ?_⟩
            intro l hl
            rcases List.mem_cons.1 hl with rfl | hl
            · exact .inr (fun ⟨x, hx⟩ => objInModule_false ho x hx)
            · exact h3 l hl

/-- C62, if no attribute raises anything else: an import is written exactly if some module that is looked at has the object. -/
theorem C62_found_iff (obj : Nat) (modules : List LoadedModule) (name : String)
    (hq : ∀ m ∈ modules, shouldSkip m.name = false → Quiet m) :
    (∃ i, createdImport modules obj name = .ok i) ↔ ∃ m ∈ modules, shouldSkip m.name = false ∧ Holds obj m := by
  constructor
  · rintro ⟨i, hi⟩
    obtain ⟨before, m, after, he, _, h1, h2, _⟩ := C62_found obj modules name i hi
    exact ⟨m, by rw [he]; simp, h1, h2⟩
  · rintro ⟨m, hm, hs, hh⟩
    unfold createdImport
    suffices ∃ r, moduleOfObj obj modules = .ok r by
      obtain ⟨r, hr⟩ := this
      rw [hr]
      exact ⟨_, rfl⟩
    induction modules with
    | nil => cases hm
    | cons k rest ih =>
      have ih := ih (fun l hl => hq l (List.mem_cons_of_mem _ hl))
      rw [moduleOfObj]
      by_cases hk : shouldSkip k.name = true
      · rw [if_pos hk]
        rcases List.mem_cons.1 hm with rfl | hm
        · rw [hk] at hs; cases hs
        · exact ih hm
      · rw [if_neg hk]
        obtain ⟨b, hb⟩ := objInModule_quiet (obj := obj) (hq k List.mem_cons_self (by simpa using hk))
        rw [hb]
        cases b with
        | true => exact ⟨_, rfl⟩
        | false =>
          rcases List.mem_cons.1 hm with rfl | hm
          · obtain ⟨x, hx⟩ := hh
            exact absurd hx (objInModule_false hb x)
          · exact ih hm

/-- C62, if every module that has the object has it under the name that is written: the import gives the object. -/
theorem C62_gives_partial (obj : Nat) (modules : List LoadedModule) (name : String) (i : Imp)
    (hn : (modules.map LoadedModule.name).Nodup)
    (hname : ∀ m ∈ modules, shouldSkip m.name = false → Holds obj m → AList.get? m.attrs name = some (.ok obj))
    (h : createdImport modules obj name = .ok i) :
    ∃ m, written i = .from_ (some m) 0 [(name, none)] ∧ fromImport modules m name = some obj := by
  obtain ⟨before, m, after, he, rfl, h1, h2, _⟩ := C62_found obj modules name i h
  refine ⟨m.name, rfl, ?_⟩
  have hm : m ∈ modules := by rw [he]; simp
  have hfind : modules.find? (fun k => decide (k.name = m.name)) = some m := by
    rw [he, List.find?_append]
    have : before.find? (fun k => decide (k.name = m.name)) = none := by
      rw [List.find?_eq_none]
      intro k hk
      simp only [decide_eq_true_eq]
      intro hkm
      rw [he, List.map_append, List.nodup_append] at hn
      exact hn.2.2 k.name (List.mem_map_of_mem hk) m.name (by simp) hkm
    rw [this]
    simp
  unfold fromImport
  rw [hfind]
  simp only [hname m hm h1 h2]

/-- Non-vacuity: the object is in the second module. -/
example : createdImport [⟨"sys", [("path", .ok 3)]⟩, ⟨"lib", [("a", .error .attributeError), ("f", .ok 7)]⟩] 7 "f" =
    .ok ⟨some "lib", ["f"], [], false⟩ := by decide +kernel

/-- C62 fails if a module imports the object under another name and comes before: the name that is written is not one of that
module. -/
theorem C62_alias_violated : ∃ (modules : List LoadedModule) (obj : Nat) (i : Imp),
    (modules.map LoadedModule.name).Nodup ∧ createdImport modules obj "f" = .ok i ∧
    fromImport modules "lib" "f" = some obj ∧ written i = .from_ (some "user") 0 [("f", none)] ∧
    fromImport modules "user" "f" = none :=
  ⟨[⟨"user", [("g", .ok 7)]⟩, ⟨"lib", [("f", .ok 7)]⟩], 7, ⟨some "user", ["f"], [], false⟩, by decide +kernel,
    by decide +kernel, by decide +kernel, by decide +kernel, by decide +kernel⟩

/-- C62 fails if that module has something else under the name: the import gives another object. -/
theorem C62_other_object_violated : ∃ (modules : List LoadedModule) (obj other : Nat) (i : Imp),
    (modules.map LoadedModule.name).Nodup ∧ createdImport modules obj "f" = .ok i ∧
    fromImport modules "lib" "f" = some obj ∧ written i = .from_ (some "user") 0 [("f", none)] ∧
    fromImport modules "user" "f" = some other ∧ other ≠ obj :=
  ⟨[⟨"user", [("f", .ok 8), ("g", .ok 7)]⟩, ⟨"lib", [("f", .ok 7)]⟩], 7, 8, ⟨some "user", ["f"], [], false⟩,
    by decide +kernel, by decide +kernel, by decide +kernel, by decide +kernel, by decide +kernel, by decide⟩

/-- C62: exactly the modules called `six.moves` in any package are passed over, and `six` itself (because of the way the ends of paths
are compared, C04). -/
theorem C62_skipped (name : String) :
    shouldSkip name = true ↔ ["six", "moves"] <:+ SectionPath.sections ⟨name⟩ ∨ SectionPath.sections ⟨name⟩ = ["six"] := by
  have hs : SectionPath.sections ⟨"six.moves"⟩ = ["six", "moves"] := by decide +kernel
  simp only [shouldSkip, skipModules, List.any_cons, List.any_nil, Bool.or_false]
  rw [C04_endswith_exact, hs]
  refine or_congr Iff.rfl ⟨fun ⟨h1, h2⟩ => ?_, fun h => by rw [h]; exact ⟨by decide, by decide⟩⟩
  have hne : SectionPath.sections ⟨name⟩ ≠ [] := split_ne_nil _ _
  match hsec : SectionPath.sections ⟨name⟩, h1, h2, hne with
  | [], _, _, hne => exact absurd rfl hne
  | [x], _, h2, _ =>
    obtain ⟨t, ht⟩ := h2
    cases ht
    rfl
  | _ :: _ :: _, h1, _, _ => simp only [List.length_cons, List.length_nil] at h1; omega

example : shouldSkip "numpy.six.moves" = true ∧ shouldSkip "six" = true ∧ shouldSkip "six.moves.urllib" = false := by
  decide +kernel

/-- C62 fails for a script that is run: `__main__` is the first module that has the object, and the import of another run
is one from another script. -/
theorem C62_main_violated (f : Nat) (rest : List LoadedModule) :
    createdImport (⟨"sys", []⟩ :: ⟨"__main__", [("f", .ok f)]⟩ :: rest) f "f" = .ok ⟨some "__main__", ["f"], [], false⟩ := by
  have h1 : shouldSkip "sys" = false := by decide +kernel
  have h2 : shouldSkip "__main__" = false := by decide +kernel
  simp [createdImport, moduleOfObj, h1, h2, objInModule, bind, Except.bind, pure, Except.pure]

/-- C62 fails if an attribute of any module before raises something other than `AttributeError`: nothing is written. -/
theorem C62_raising_violated (f : Nat) (rest : List LoadedModule) :
    createdImport (⟨"lazy", [("a", .error .importError)]⟩ :: ⟨"lib", [("f", .ok f)]⟩ :: rest) f "f" = .error .importError := by
  have h1 : shouldSkip "lazy" = false := by decide +kernel
  simp [createdImport, moduleOfObj, h1, objInModule, bind, Except.bind]

/-! ## C63 -/

/-- The values of entries: objects and modules. -/
inductive Val where
  | obj (o : Nat)
  | module (m : String)
deriving DecidableEq, Repr

/-- What there is outside: modules, attributes and calls of objects. -/
structure World where
  importable : Importable
  attr : Nat → String → Except PyErr Nat
  call : Nat → List Val → List (String × Val) → Except PyErr Nat
  const : String → Nat

/-- What a name means after the imports: the last binding counts. -/
def nameValue (w : World) (nodes : List ImportNode) (x : String) : Except PyErr Val :=
  match (nodes.flatMap provides).reverse.find? (fun b => decide (b.1 = x)) with
  | some (_, .member 0 (some m) o) => do
    let attrs ← w.importable m
    let v ← moduleAttr attrs o
    return .obj v
  | some (_, .module m) => do
    let _ ← w.importable m
    return .module m
  | _ => .error .importError

mutual
/-- What an entry means after the imports. -/
def evalEntry (w : World) (nodes : List ImportNode) : EntryExpr → Except PyErr Val
  | .name x => nameValue w nodes x
  | .attribute e a => do
    match ← evalEntry w nodes e with
    | .module m => do
      let attrs ← w.importable m
      let v ← moduleAttr attrs a
      return .obj v
    | .obj o => do
      let v ← w.attr o a
      return .obj v
  | .call f args kwargs => do
    match ← evalEntry w nodes f with
    | .module _ => .error .typeError
    | .obj o => do
      let vs ← evalEntries w nodes args
      let ks ← evalKwargs w nodes kwargs
      let v ← w.call o vs ks
      return .obj v
  | .str s => .ok (.obj (w.const s))
  | .other _ => .error .notImplemented
/-- What several entries mean. -/
def evalEntries (w : World) (nodes : List ImportNode) : List EntryExpr → Except PyErr (List Val)
  | [] => .ok []
  | e :: rest => do
    let v ← evalEntry w nodes e
    let vs ← evalEntries w nodes rest
    return v :: vs
/-- What keyword arguments mean. -/
def evalKwargs (w : World) (nodes : List ImportNode) : List (String × EntryExpr) → Except PyErr (List (String × Val))
  | [] => .ok []
  | (k, e) :: rest => do
    let v ← evalEntry w nodes e
    let vs ← evalKwargs w nodes rest
    return (k, v) :: vs
end

/-- The imports that are read from the statements of a file. -/
inductive ReadAll : List ImportNode → List Imp → Prop
  | nil : ReadAll [] []
  | cons {n nodes i is} : Imp.ofNode n = .ok i → ReadAll nodes is → ReadAll (n :: nodes) (i :: is)

theorem ofNode_fields {n : ImportNode} {i : Imp} (h : Imp.ofNode n = .ok i) :
    i.names = (aliasesOf n).map Prod.fst ∧ i.renames = renamesOf (aliasesOf n) ∧
    ∀ a ∈ aliasesOf n, (a.2.getD a.1, match i.source with
      | none => Thing.module a.1
      | some m => Thing.member (match n with | .from_ _ l _ => l | _ => 0) (some m) a.1) ∈ provides n := by
  match n, h with
  | .import_ aliases, h =>
    cases h
    refine ⟨rfl, rfl, fun a ha => ?_⟩
    exact List.mem_map.2 ⟨a, ha, rfl⟩
  | .from_ (some m) l aliases, h =>
    cases h
    refine ⟨rfl, rfl, fun a ha => ?_⟩
    exact List.mem_map.2 ⟨a, ha, rfl⟩

/-- What the import that is found for a name is, if the file binds the name to one thing and no import renames it. -/
theorem getImport_unique {nodes : List ImportNode} {is : List Imp} (h : ReadAll nodes is) {x m o : String}
    (hone : ∀ t, (x, t) ∈ nodes.flatMap provides → t = .member 0 (some m) o)
    (hren : ∀ n ∈ nodes, ∀ a ∈ aliasesOf n, a.1 = x → a.2.getD x = x)
    (hex : ∃ t, (x, t) ∈ nodes.flatMap provides) :
    ∃ rs, getImport is x = .ok ⟨some m, [o], rs, false⟩ := by
  induction h with
  | nil => obtain ⟨t, ht⟩ := hex; simp at ht
  | @cons n nodes i is hi _ ih =>
    obtain ⟨hf1, hf2, hf3⟩ := ofNode_fields hi
    have hone' : ∀ t, (x, t) ∈ provides n → t = .member 0 (some m) o := fun t ht => hone t (by
      rw [List.flatMap_cons, List.mem_append]; exact .inl ht)
    -- what a name of the statement that becomes `x` says
    have hal : ∀ a ∈ aliasesOf n, a.2.getD a.1 = x → i.source = some m ∧ a.1 = o := by
      intro a ha hax
      have h3 := hf3 a ha
      rw [hax] at h3
      have := hone' _ h3
      cases hs : i.source with
      | none => rw [hs] at this; cases this
      | some m' =>
        rw [hs] at this
        simp only [Thing.member.injEq, Option.some.injEq] at this
        exact ⟨by rw [this.2.1], this.2.2⟩
    rw [getImport]
    by_cases h1 : x ∈ i.names
    · rw [if_pos h1]
      rw [hf1] at h1
      obtain ⟨a, ha, hax⟩ := List.mem_map.1 h1
      have h2 := hal a ha (by rw [hax]; exact hren n List.mem_cons_self a ha hax)
      rw [h2.1, ← h2.2, hax]
      exact ⟨_, rfl⟩
    · rw [if_neg h1]
      by_cases h2 : x ∈ newNames i.renames
      · rw [if_pos h2]
        have hmem : ∃ r ∈ i.renames, r.item = originalOf i.renames x ∧ r.newName = x := by
          obtain ⟨r, hr, hrn⟩ := mem_newNames.1 h2
          unfold originalOf
          cases hl : (i.renames.filter (fun r => decide (r.newName = x))).getLast? with
          | none =>
            rw [List.getLast?_eq_none_iff] at hl
            have : r ∈ i.renames.filter (fun r => decide (r.newName = x)) :=
              List.mem_filter.2 ⟨hr, by simpa using hrn⟩
            rw [hl] at this
            cases this
          | some r' =>
            have := List.mem_filter.1 (List.mem_of_getLast? hl)
            exact ⟨r', this.1, rfl, by simpa using this.2⟩
        obtain ⟨r, hr, hri, hrn⟩ := hmem
        rw [hf2] at hr
        have ha := mem_renamesOf.1 hr
        have h3 := hal _ ha (by simpa using hrn)
        rw [← hri, h3.1]
        simp only at h3
        rw [h3.2]
        exact ⟨_, rfl⟩
      · rw [if_neg h2]
        refine ih (fun t ht => hone t (by rw [List.flatMap_cons, List.mem_append]; exact .inr ht))
          (fun k hk => hren k (List.mem_cons_of_mem _ hk)) ?_
        obtain ⟨t, ht⟩ := hex
        rw [List.flatMap_cons, List.mem_append] at ht
        rcases ht with ht | ht
        · exfalso
          have : ∃ a ∈ aliasesOf n, a.2.getD a.1 = x := by
            cases n with
            | import_ aliases =>
              obtain ⟨a, ha, he⟩ := List.mem_map.1 ht
              exact ⟨a, ha, congrArg Prod.fst he⟩
            | from_ m' l aliases =>
              obtain ⟨a, ha, he⟩ := List.mem_map.1 ht
              exact ⟨a, ha, congrArg Prod.fst he⟩
          obtain ⟨a, ha, hax⟩ := this
          rcases a with ⟨a1, a2⟩
          cases a2 with
          | none =>
            apply h1
            rw [hf1]
            exact List.mem_map.2 ⟨_, ha, hax⟩
          | some k =>
            apply h2
            simp only [Option.getD_some] at hax
            subst hax
            rw [mem_newNames, hf2]
            exact ⟨⟨a1, k⟩, mem_renamesOf.2 ha, rfl⟩
        · exact ⟨t, ht⟩

/-- C63, for a name that the file imports from one module, and that no import renames: it is registered under that name, and
loading it gives what the name means, or fails as executing the import does. -/
theorem C63_name_partial (w : World) (nodes : List ImportNode) (is : List Imp) (h : ReadAll nodes is) (x m o : String)
    (hex : (x, Thing.member 0 (some m) o) ∈ nodes.flatMap provides)
    (hone : ∀ t, (x, t) ∈ nodes.flatMap provides → t = .member 0 (some m) o)
    (hren : ∀ n ∈ nodes, ∀ a ∈ aliasesOf n, a.1 = x → a.2.getD x = x) :
    ∃ v, viewOfEntry is (.name x) = .ok v ∧ v.name = some x ∧
      (v.load w.importable).map Val.obj = evalEntry w nodes (.name x) := by
  obtain ⟨rs, hi⟩ := getImport_unique h hone hren ⟨_, hex⟩
  refine ⟨⟨some x, some ⟨some m, [o], rs, false⟩⟩, ?_, rfl, ?_⟩
  · simp only [viewOfEntry, externalName, exprNames, bind, Except.bind, hi]
    rfl
  · have hfind : (nodes.flatMap provides).reverse.find? (fun b => decide (b.1 = x)) =
        some (x, .member 0 (some m) o) := by
      cases hf : (nodes.flatMap provides).reverse.find? (fun b => decide (b.1 = x)) with
      | none =>
        have := List.find?_eq_none.1 hf _ (List.mem_reverse.2 hex)
        simp at this
      | some b =>
        have hb := List.mem_reverse.1 (List.mem_of_find?_eq_some hf)
        have hbx := List.find?_some hf
        simp only [decide_eq_true_eq] at hbx
        obtain ⟨b1, b2⟩ := b
        simp only at hbx
        subst hbx
        rw [hone b2 hb]
    rw [evalEntry, nameValue, hfind]
    simp only [ObjView.load, bind, Except.bind, pure, Except.pure]
    cases w.importable m with
    | error e => rfl
    | ok attrs =>
      simp only
      cases moduleAttr attrs o <;> rfl

/-- Non-vacuity: `from lib import f as g` and an entry `g`. -/
example (w : World) : ∃ v, viewOfEntry [⟨some "lib", ["f"], [⟨"f", "g"⟩], false⟩] (.name "g") = .ok v ∧ v.name = some "g" ∧
    (v.load w.importable).map Val.obj = evalEntry w [.from_ (some "lib") 0 [("f", some "g")]] (.name "g") :=
  C63_name_partial w _ _ (.cons rfl .nil) "g" "lib" "f" (by simp [provides]) (by simp [provides])
    (by simp [aliasesOf])

/-- C63. Only names that the entry has, and of which it has no other one, become the name of an item. -/
theorem C63_registered_name (is : List Imp) (e : EntryExpr) (v : ObjView) (h : viewOfEntry is e = .ok v) (x : String) :
    v.name = some x ↔ exprNames e = [x] := by
  unfold viewOfEntry externalName at h
  match hn : exprNames e with
  | [] => rw [hn] at h; cases h; simp
  | [y] =>
    rw [hn] at h
    simp only [bind, Except.bind] at h
    cases hg : getImport is y with
    | error e => rw [hg] at h; cases h
    | ok i =>
      rw [hg] at h
      cases h
      simp
  | y :: z :: r => rw [hn] at h; cases h

/-- C63 fails for `import lib` and an entry `lib.f`: it is registered under the name of the module, and an attribute of the
module with the name of the module is looked for. -/
theorem C63_module_violated (w : World) (attrs : List (String × Nat)) (f : Nat) (hlib : w.importable "lib" = .ok attrs)
    (hf : AList.get? attrs "f" = some f) (hno : AList.get? attrs "lib" = none) :
    evalEntry w [.import_ [("lib", none)]] (.attribute (.name "lib") "f") = .ok (.obj f) ∧
    ∃ v, viewOfEntry [⟨none, ["lib"], [], false⟩] (.attribute (.name "lib") "f") = .ok v ∧ v.name = some "lib" ∧
      v.load w.importable = .error .attributeError := by
  refine ⟨?_, ⟨some "lib", some ⟨none, ["lib"], [], false⟩⟩, rfl, rfl, ?_⟩
  · simp [evalEntry, nameValue, provides, hlib, bind, Except.bind, pure, Except.pure, moduleAttr, hf]
  · simp [ObjView.load, hlib, bind, Except.bind, moduleAttr, hno]

/-- C63 fails for an entry `b.attr`: `b` is loaded instead. -/
theorem C63_attribute_violated (w : World) (attrs : List (String × Nat)) (b v : Nat) (hlib : w.importable "lib" = .ok attrs)
    (hb : AList.get? attrs "b" = some b) (hv : w.attr b "attr" = .ok v) :
    evalEntry w [.from_ (some "lib") 0 [("b", none)]] (.attribute (.name "b") "attr") = .ok (.obj v) ∧
    ∃ view, viewOfEntry [⟨some "lib", ["b"], [], false⟩] (.attribute (.name "b") "attr") = .ok view ∧
      view.load w.importable = .ok b := by
  refine ⟨?_, ⟨some "b", some ⟨some "lib", ["b"], [], false⟩⟩, rfl, ?_⟩
  · simp [evalEntry, nameValue, provides, hlib, bind, Except.bind, pure, Except.pure, moduleAttr, hb, hv]
  · simp [ObjView.load, hlib, bind, Except.bind, moduleAttr, hb]

/-- C63 fails for an entry `make("x")`: `make` is loaded instead of what it returns. -/
theorem C63_call_violated (w : World) (attrs : List (String × Nat)) (make v : Nat) (hlib : w.importable "lib" = .ok attrs)
    (hm : AList.get? attrs "make" = some make) (hv : w.call make [.obj (w.const "x")] [] = .ok v) :
    evalEntry w [.from_ (some "lib") 0 [("make", none)]] (.call (.name "make") [.str "x"] []) = .ok (.obj v) ∧
    ∃ view, viewOfEntry [⟨some "lib", ["make"], [], false⟩] (.call (.name "make") [.str "x"] []) = .ok view ∧
      view.load w.importable = .ok make := by
  refine ⟨?_, ⟨some "make", some ⟨some "lib", ["make"], [], false⟩⟩, rfl, ?_⟩
  · simp [evalEntry, evalEntries, evalKwargs, nameValue, provides, hlib, bind, Except.bind, pure, Except.pure, moduleAttr,
      hm, hv]
  · simp [ObjView.load, hlib, bind, Except.bind, moduleAttr, hm]

/-- C63 fails for an entry with several names, such as `wrap(f)`: it is an error, whatever it means. -/
theorem C63_several_violated (is : List Imp) (e : EntryExpr) (x y : String) (rest : List String)
    (h : exprNames e = x :: y :: rest) : viewOfEntry is e = .error .valueError := by
  unfold viewOfEntry externalName
  rw [h]
  rfl

/-- C63 fails if two imports bind the name: the first one is loaded, the last one counts in Python. -/
theorem C63_twice_violated (w : World) (attrs attrs' : List (String × Nat)) (a b : Nat) (hm : w.importable "m" = .ok attrs)
    (hn : w.importable "n" = .ok attrs') (ha : AList.get? attrs "f" = some a) (hb : AList.get? attrs' "f" = some b) :
    evalEntry w [.from_ (some "m") 0 [("f", none)], .from_ (some "n") 0 [("f", none)]] (.name "f") = .ok (.obj b) ∧
    ∃ view, viewOfEntry [⟨some "m", ["f"], [], false⟩, ⟨some "n", ["f"], [], false⟩] (.name "f") = .ok view ∧
      view.load w.importable = .ok a := by
  refine ⟨?_, ⟨some "f", some ⟨some "m", ["f"], [], false⟩⟩, rfl, ?_⟩
  · simp [evalEntry, nameValue, provides, hn, bind, Except.bind, pure, Except.pure, moduleAttr, hb]
  · simp [ObjView.load, hm, bind, Except.bind, moduleAttr, ha]

end Verif.Props
