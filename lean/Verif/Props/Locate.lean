import Verif.Model.Locate
import Verif.Props.Args

/-
Property theorems about the definition whose parameters are scaffolded: C61.
-/

namespace Verif.Props
open Verif.Py Verif.Model

/-! ### Specification -/

/-- What a statement may bind a name to: a function, an `async` function, a class, something imported, or the value of an
expression. -/
inductive Bound where
  | func (args : Arguments)
  | async
  | cls (body : List PyStmt)
  | member (level : Nat) (module : Option String) (name : String)
  | module (name : String)
  | value

/-- The name that one alias of an import statement binds. -/
def aliasBinds : ImportNode → String × Option String → String × Bound
  | .import_ _, (n, none) => ((split '.' n).headD n, .module ((split '.' n).headD n))
  | .import_ _, (n, some k) => (k, .module n)
  | .from_ m level _, (n, k) => (k.getD n, .member level m n)

/-- Whether an assignment assigns to a name. -/
def assigns (x : String) : AssignNode → Bool
  | .assign targets _ => targets.any (fun t => decide (t = .name x))
  | .ann t _ v => decide (t = .name x) && v.isSome

mutual
/-- All statements of a module, or of the body of a class, that bind a name there.  Bodies of functions and classes have
their own names. -/
def bindings (x : String) : PyStmt → List Bound
  | .func n a _ => if n = x then [.func a] else []
  | .async n _ => if n = x then [.async] else []
  | .cls n body => if n = x then [.cls body] else []
  | .block body => bindingsAll x body
  | .imp node => ((aliasesOf node).map (aliasBinds node)).filterMap (fun b => if b.1 = x then some b.2 else none)
  | .assign node => if assigns x node then [.value] else []
  | .other => []
def bindingsAll (x : String) : List PyStmt → List Bound
  | [] => []
  | s :: rest => bindings x s ++ bindingsAll x rest
end

/-- The module meant by an import in a module (which is not a package): the dots lead to the packages around it. -/
def absolute (m : String) (level : Nat) (target : Option String) : Option String :=
  match level with
  | 0 => target
  | k + 1 =>
    let parts := (split '.' m)
    if parts.length ≤ k then none
    else some (join '.' (parts.take (parts.length - (k + 1)) ++ target.toList))

/-- What a name of a module denotes, if every name on the way is bound by one statement: the parameters of a function, or of
the `__init__` of a class. -/
inductive NameDenotes (files : ModuleFiles) : String → String → Bool → Arguments → Prop where
  | func {m x : String} {stmts : List PyStmt} {a : Arguments} : files m = .ok stmts → bindingsAll x stmts = [.func a] →
      NameDenotes files m x false a
  | cls {m x : String} {stmts body : List PyStmt} {a : Arguments} : files m = .ok stmts → bindingsAll x stmts = [.cls body] →
      bindingsAll "__init__" body = [.func a] → NameDenotes files m x true a
  | imported {m x m' y : String} {stmts : List PyStmt} {level : Nat} {target : Option String} {init : Bool} {a : Arguments} :
      files m = .ok stmts → bindingsAll x stmts = [.member level target y] → absolute m level target = some m' →
      NameDenotes files m' y init a → NameDenotes files m x init a

mutual
/-- No `async` function is there outside of functions, and no class is called `__init__`. -/
def Sync : PyStmt → Prop
  | .func _ _ _ => True
  | .async _ _ => False
  | .cls n body => n ≠ "__init__" ∧ SyncAll body
  | .block body => SyncAll body
  | .imp _ => True
  | .assign _ => True
  | .other => True
def SyncAll : List PyStmt → Prop
  | [] => True
  | s :: rest => Sync s ∧ SyncAll rest
end

/-- A module the code can read: every import names a module, every assignment has one target. -/
def ReadableFile (stmts : List PyStmt) : Prop :=
  (∀ node ∈ importsInAll stmts, ∀ level as, node ≠ .from_ none level as) ∧
  (∀ node ∈ assignsInAll stmts, ∀ ts v, node = .assign ts v → ts.length = 1)

/-- A name is imported from a module under a name, not relatively, and no import anywhere in the file has the name in another
role. -/
def ImportedOnly (stmts : List PyStmt) (x m y : String) : Prop :=
  ∀ node ∈ importsInAll stmts, ∀ a ∈ aliasesOf node, a.1 = x ∨ a.2 = some x →
    (∃ as, node = .from_ (some m) 0 as) ∧ a.1 = y ∧ a.2.getD a.1 = x

/-- The modules have the shapes for which the property is proved. -/
structure PlainFiles (files : ModuleFiles) : Prop where
  sync : ∀ m stmts, files m = .ok stmts → SyncAll stmts
  readable : ∀ m stmts, files m = .ok stmts → ReadableFile stmts
  imports : ∀ m stmts, files m = .ok stmts → ∀ x level target y, bindingsAll x stmts = [.member level target y] →
    ∃ m', target = some m' ∧ level = 0 ∧ ImportedOnly stmts x m' y
  init : ∀ m stmts, files m = .ok stmts → bindingsAll "__init__" stmts = []

/-- The functions among what a name is bound to. -/
def funcsOf (x : String) : Bound → List (String × Arguments)
  | .func a => [(x, a)]
  | _ => []

/-- The parameters that go with what a name may be bound to. -/
def signatures (x : String) : Bound → List (String × Arguments)
  | .func a => [(x, a)]
  | .cls body => (bindingsAll "__init__" body).flatMap (funcsOf "__init__")
  | _ => []

/-! ### Lemmas -/

theorem bindingsAll_append (x : String) (xs ys : List PyStmt) : bindingsAll x (xs ++ ys) = bindingsAll x xs ++ bindingsAll x ys := by
  induction xs with
  | nil => rfl
  | cons s xs ih => rw [List.cons_append, bindingsAll, ih, bindingsAll, List.append_assoc]

mutual
theorem defsIn_init (s : PyStmt) (h : Sync s) : defsIn "__init__" s = (bindings "__init__" s).flatMap (funcsOf "__init__") := by
  match s with
  | .func n a _ =>
    rw [defsIn, bindings]
    by_cases hn : n = "__init__"
    · simp [hn, funcsOf]
    · simp [hn]
  | .async _ _ => exact absurd h (by simp [Sync])
  | .cls n body =>
    rw [Sync] at h
    rw [defsIn, bindings, if_neg h.1, if_neg h.1]
    rfl
  | .block body =>
    rw [Sync] at h
    rw [defsIn, bindings]
    exact defsInAll_init body h
  | .imp node =>
    rw [defsIn, bindings]
    symm
    rw [List.flatMap_eq_nil_iff]
    intro b hb
    rw [List.mem_filterMap] at hb
    obtain ⟨p, hp, he⟩ := hb
    rw [List.mem_map] at hp
    obtain ⟨al, _, rfl⟩ := hp
    split at he
    · cases he
      match node, al with
      | .import_ _, (_, none) => rfl
      | .import_ _, (_, some _) => rfl
      | .from_ _ _ _, _ => rfl
    · cases he
  | .assign node =>
    rw [defsIn, bindings]
    by_cases hx : assigns "__init__" node = true
    · simp [hx, funcsOf]
    · simp [hx]
  | .other => rfl
theorem defsInAll_init (ss : List PyStmt) (h : SyncAll ss) :
    defsInAll "__init__" ss = (bindingsAll "__init__" ss).flatMap (funcsOf "__init__") := by
  match ss with
  | [] => rfl
  | s :: rest =>
    rw [SyncAll] at h
    rw [defsInAll, bindingsAll, List.flatMap_append, defsIn_init s h.1, defsInAll_init rest h.2]
end

theorem signatures_import (x : String) (node : ImportNode) :
    (((aliasesOf node).map (aliasBinds node)).filterMap (fun b => if b.1 = x then some b.2 else none)).flatMap (signatures x) = [] := by
  rw [List.flatMap_eq_nil_iff]
  intro b hb
  rw [List.mem_filterMap] at hb
  obtain ⟨p, hp, he⟩ := hb
  rw [List.mem_map] at hp
  obtain ⟨al, _, rfl⟩ := hp
  split at he
  · cases he
    match node, al with
    | .import_ _, (_, none) => rfl
    | .import_ _, (_, some _) => rfl
    | .from_ _ _ _, _ => rfl
  · cases he

mutual
theorem defsIn_eq (x : String) (s : PyStmt) (h : Sync s) : defsIn x s = (bindings x s).flatMap (signatures x) := by
  match s with
  | .func n a _ =>
    rw [defsIn, bindings]
    by_cases hn : n = x
    · simp [hn, signatures]
    · simp [hn]
  | .async _ _ => exact absurd h (by simp [Sync])
  | .cls n body =>
    rw [Sync] at h
    rw [defsIn, bindings]
    by_cases hn : n = x
    · rw [if_pos hn, if_pos hn, defsInAll_init body h.2]
      simp [signatures]
    · rw [if_neg hn, if_neg hn]
      rfl
  | .block body =>
    rw [Sync] at h
    rw [defsIn, bindings]
    exact defsInAll_eq x body h
  | .imp node =>
    rw [defsIn, bindings, signatures_import]
  | .assign node =>
    rw [defsIn, bindings]
    by_cases hx : assigns x node = true
    · simp [hx, signatures]
    · simp [hx]
  | .other => rfl
theorem defsInAll_eq (x : String) (ss : List PyStmt) (h : SyncAll ss) :
    defsInAll x ss = (bindingsAll x ss).flatMap (signatures x) := by
  match ss with
  | [] => rfl
  | s :: rest =>
    rw [SyncAll] at h
    rw [defsInAll, bindingsAll, List.flatMap_append, defsIn_eq x s h.1, defsInAll_eq x rest h.2]
end

theorem mapM_ok {α β : Type} {f : α → Except PyErr β} {xs : List α} (h : ∀ a ∈ xs, ∃ b, f a = .ok b) :
    ∃ ys, xs.mapM f = .ok ys ∧ ∀ y ∈ ys, ∃ a ∈ xs, f a = .ok y := by
  induction xs with
  | nil => exact ⟨[], rfl, by simp⟩
  | cons x xs ih =>
    obtain ⟨b, hb⟩ := h x List.mem_cons_self
    obtain ⟨ys, hys, hall⟩ := ih (fun a ha => h a (List.mem_cons_of_mem _ ha))
    refine ⟨b :: ys, ?_, ?_⟩
    · rw [List.mapM_cons, hb, hys]
      rfl
    · intro y hy
      rcases List.mem_cons.1 hy with rfl | hy
      · exact ⟨x, List.mem_cons_self, hb⟩
      · obtain ⟨a, ha, he⟩ := hall y hy
        exact ⟨a, List.mem_cons_of_mem _ ha, he⟩

theorem mapM_mem {α β : Type} {f : α → Except PyErr β} {xs : List α} {ys : List β} (h : xs.mapM f = .ok ys) {a : α}
    (ha : a ∈ xs) : ∃ y ∈ ys, f a = .ok y := by
  induction xs generalizing ys with
  | nil => cases ha
  | cons x xs ih =>
    rw [List.mapM_cons] at h
    cases hx : f x with
    | error e => rw [hx] at h; cases h
    | ok b =>
      rw [hx] at h
      cases hr : xs.mapM f with
      | error e => rw [hr] at h; cases h
      | ok bs =>
        rw [hr] at h
        cases h
        rcases List.mem_cons.1 ha with rfl | ha
        · exact ⟨b, List.mem_cons_self, hx⟩
        · obtain ⟨y, hy, he⟩ := ih hr ha
          exact ⟨y, List.mem_cons_of_mem _ hy, he⟩

theorem readableFile_ok {stmts : List PyStmt} (h : ReadableFile stmts) :
    (∃ is, (importsInAll stmts).mapM Imp.ofNode = .ok is ∧ ∀ i ∈ is, ∃ node ∈ importsInAll stmts, Imp.ofNode node = .ok i) ∧
    ∃ as, (assignsInAll stmts).mapM Assign.ofNode = .ok as := by
  constructor
  · apply mapM_ok
    intro node hn
    cases node with
    | import_ as => exact ⟨_, rfl⟩
    | from_ m level as =>
      cases m with
      | none => exact absurd rfl (h.1 _ hn level as)
      | some m => exact ⟨_, rfl⟩
  · obtain ⟨ys, hys, _⟩ := mapM_ok (f := Assign.ofNode) (xs := assignsInAll stmts) (by
      intro node hn
      match node with
      | .assign [] v => exact absurd (h.2 _ hn [] v rfl) (by simp)
      | .assign [t] v => exact ⟨_, rfl⟩
      | .assign (_ :: _ :: _) v => exact absurd (h.2 _ hn _ v rfl) (by simp)
      | .ann t a v => exact ⟨_, rfl⟩)
    exact ⟨ys, hys⟩

/-- What `originalOf` gives for a name that is among the new names. -/
theorem originalOf_spec {rs : List Rename} {x : String} (h : x ∈ newNames rs) :
    ∃ r ∈ rs, r.item = originalOf rs x ∧ r.newName = x := by
  obtain ⟨r, hr, hrn⟩ := mem_newNames.1 h
  unfold originalOf
  cases hl : (rs.filter (fun r => decide (r.newName = x))).getLast? with
  | none =>
    rw [List.getLast?_eq_none_iff] at hl
    have : r ∈ rs.filter (fun r => decide (r.newName = x)) := List.mem_filter.2 ⟨hr, by simpa using hrn⟩
    rw [hl] at this
    cases this
  | some r' =>
    have := List.mem_filter.1 (List.mem_of_getLast? hl)
    exact ⟨r', this.1, rfl, by simpa using this.2⟩

/-- The import found for a name that is imported in one way only. -/
theorem getImport_only {nodes : List ImportNode} {is : List Imp} {x m y : String}
    (his : ∀ i ∈ is, ∃ node ∈ nodes, Imp.ofNode node = .ok i)
    (hex : ∃ i ∈ is, mentions i x)
    (h : ∀ node ∈ nodes, ∀ a ∈ aliasesOf node, a.1 = x ∨ a.2 = some x →
      (∃ as, node = .from_ (some m) 0 as) ∧ a.1 = y ∧ a.2.getD a.1 = x) :
    ∃ rs, getImport is x = .ok ⟨some m, [y], rs, false⟩ ∧ (if x ∈ newNames rs then originalOf rs x else x) = y := by
  induction is with
  | nil => obtain ⟨i, hi, _⟩ := hex; cases hi
  | cons i is ih =>
    obtain ⟨node, hnode, hof⟩ := his i List.mem_cons_self
    have hf : i.names = (aliasesOf node).map Prod.fst ∧ i.renames = renamesOf (aliasesOf node) ∧
        ∀ level m as, node = .from_ m level as → i.source = m ∧ m ≠ none := readFrom_fields ⟨i.preferBeginning, by
      rw [hof]
      rfl⟩
    rw [getImport]
    by_cases h1 : x ∈ i.names
    · rw [if_pos h1]
      rw [hf.1, List.mem_map] at h1
      obtain ⟨a, ha, hax⟩ := h1
      obtain ⟨⟨as, hn⟩, hy, _⟩ := h node hnode a ha (.inl hax)
      refine ⟨[], ?_, ?_⟩
      · rw [(hf.2.2 0 (some m) as hn).1, ← hy, hax]
      · simp only [newNames, List.map_nil, List.not_mem_nil, if_false]
        rw [← hy, hax]
    · rw [if_neg h1]
      by_cases h2 : x ∈ newNames i.renames
      · rw [if_pos h2]
        obtain ⟨r, hr, hri, hrn⟩ := originalOf_spec h2
        have hal : (r.item, some x) ∈ aliasesOf node := by
          rw [← hrn]
          exact mem_renamesOf.1 (hf.2.1 ▸ hr)
        obtain ⟨⟨as, hn⟩, hy, _⟩ := h node hnode _ hal (.inr rfl)
        have hoy : originalOf i.renames x = y := by rw [← hri]; exact hy
        refine ⟨i.renames.filter (fun r => decide (r.newName = x)), ?_, ?_⟩
        · rw [(hf.2.2 0 (some m) as hn).1, hoy]
        · have hm : x ∈ newNames (i.renames.filter (fun r => decide (r.newName = x))) :=
            mem_newNames.2 ⟨r, List.mem_filter.2 ⟨hr, by simpa using hrn⟩, hrn⟩
          rw [if_pos hm]
          have : originalOf (i.renames.filter (fun r => decide (r.newName = x))) x = originalOf i.renames x := by
            unfold originalOf
            rw [List.filter_filter]
            simp
          rw [this, hoy]
      · rw [if_neg h2]
        apply ih (fun j hj => his j (List.mem_cons_of_mem _ hj))
        obtain ⟨j, hj, hm⟩ := hex
        rcases List.mem_cons.1 hj with rfl | hj
        · rcases hm with hm | hm
          · exact absurd hm h1
          · exact absurd (mem_newNames.2 hm) h2
        · exact ⟨j, hj, hm⟩

mutual
/-- A name bound by an import is bound by an import of the file. -/
theorem import_of_binding {x y : String} {level : Nat} {target : Option String} (s : PyStmt)
    (h : Bound.member level target y ∈ bindings x s) :
    ∃ as, ImportNode.from_ target level as ∈ importsIn s ∧ ∃ k, (y, k) ∈ as ∧ k.getD y = x := by
  match s with
  | .func n a _ =>
    rw [bindings] at h
    split at h <;> simp at h
  | .async n _ =>
    rw [bindings] at h
    split at h <;> simp at h
  | .cls n _ =>
    rw [bindings] at h
    split at h <;> simp at h
  | .block body =>
    rw [bindings] at h
    rw [importsIn]
    exact import_of_bindings body h
  | .imp node =>
    rw [bindings, List.mem_filterMap] at h
    obtain ⟨p, hp, he⟩ := h
    rw [List.mem_map] at hp
    obtain ⟨al, hal, rfl⟩ := hp
    split at he
    · rename_i hx
      match node, al with
      | .import_ _, (_, none) => cases he
      | .import_ _, (_, some _) => cases he
      | .from_ m l as, (n, k) =>
        cases he
        exact ⟨as, by simp [importsIn], k, hal, hx⟩
    · cases he
  | .assign node =>
    rw [bindings] at h
    split at h <;> simp at h
  | .other => rw [bindings] at h; cases h
theorem import_of_bindings {x y : String} {level : Nat} {target : Option String} (ss : List PyStmt)
    (h : Bound.member level target y ∈ bindingsAll x ss) :
    ∃ as, ImportNode.from_ target level as ∈ importsInAll ss ∧ ∃ k, (y, k) ∈ as ∧ k.getD y = x := by
  match ss with
  | [] => rw [bindingsAll] at h; cases h
  | s :: rest =>
    rw [bindingsAll, List.mem_append] at h
    rw [importsInAll]
    rcases h with h | h
    · obtain ⟨as, hm, hk⟩ := import_of_binding s h
      exact ⟨as, List.mem_append_left _ hm, hk⟩
    · obtain ⟨as, hm, hk⟩ := import_of_bindings rest h
      exact ⟨as, List.mem_append_right _ hm, hk⟩
end

theorem extractDef_step {files : ModuleFiles} {n : Nat} {name m y : String} {rs : List Rename} {stmts : List PyStmt}
    (hf : files m = .ok stmts) (hr : ReadableFile stmts)
    (hx : (if name ∈ newNames rs then originalOf rs name else name) = y) :
    ∃ is as, ((importsInAll stmts).mapM Imp.ofNode = .ok is ∧ ∀ i ∈ is, ∃ node ∈ importsInAll stmts, Imp.ofNode node = .ok i) ∧
      (assignsInAll stmts).mapM Assign.ofNode = .ok as ∧
      extractDef files (n + 1) name ⟨some m, [y], rs, false⟩ = (do
        match ← findDef stmts y with
        | some d => pure ⟨m, d.1, d.2, is, as⟩
        | none => do
          let next ← getImport is y
          extractDef files n y next) := by
  obtain ⟨⟨is, his, hall⟩, as, has⟩ := readableFile_ok hr
  refine ⟨is, as, ⟨his, hall⟩, has, ?_⟩
  rw [extractDef]
  simp only [fileOfImport, hf, hx, moduleOfImport, bind, Except.bind, his, has]
  rfl

/-! ### C61 -/

/-- C61, for modules without `async` functions and relative imports, in which a name that is imported is not imported in
another way anywhere: if a name denotes a function or class, through any imports and renames, the parameters found for it are
those of that function or of the `__init__` of that class. -/
theorem C61_denoted_partial (files : ModuleFiles) (hp : PlainFiles files) (m x : String) (init : Bool) (a : Arguments)
    (h : NameDenotes files m x init a) (name : String) (rs : List Rename)
    (hx : (if name ∈ newNames rs then originalOf rs name else name) = x) :
    ∃ n, ∀ k, n ≤ k → ∃ f, extractDef files k name ⟨some m, [x], rs, false⟩ = .ok f ∧ f.args = a ∧ decide (f.name = "__init__") = init := by
  induction h generalizing name rs with
  | @func m x stmts a hf hb =>
    refine ⟨1, fun k hk => ?_⟩
    obtain ⟨k, rfl⟩ : ∃ j, k = j + 1 := ⟨k - 1, by omega⟩
    obtain ⟨is, as, _, _, he⟩ := extractDef_step (n := k) hf (hp.readable m stmts hf) hx
    have hd : findDef stmts x = .ok (some (x, a)) := by
      unfold findDef
      rw [defsInAll_eq x stmts (hp.sync m stmts hf), hb]
      rfl
    have hne : x ≠ "__init__" := by
      rintro rfl
      rw [hp.init m stmts hf] at hb
      cases hb
    rw [he, hd]
    exact ⟨_, rfl, rfl, by simpa using hne⟩
  | @cls m x stmts body a hf hb hi =>
    refine ⟨1, fun k hk => ?_⟩
    obtain ⟨k, rfl⟩ : ∃ j, k = j + 1 := ⟨k - 1, by omega⟩
    obtain ⟨is, as, _, _, he⟩ := extractDef_step (n := k) hf (hp.readable m stmts hf) hx
    have hd : findDef stmts x = .ok (some ("__init__", a)) := by
      unfold findDef
      rw [defsInAll_eq x stmts (hp.sync m stmts hf), hb]
      simp [signatures, hi, funcsOf]
    rw [he, hd]
    exact ⟨_, rfl, rfl, by simp⟩
  | @imported m x m' y stmts level target init a hf hb habs hden ih =>
    obtain ⟨m'', ht, hl, honly⟩ := hp.imports m stmts hf x level target y hb
    subst ht hl
    have hm : m'' = m' := by
      simpa [absolute] using habs
    subst hm
    obtain ⟨as', hnode, kk, hkk, hkx⟩ := import_of_bindings stmts (x := x) (y := y) (level := 0) (target := some m'') (by
      rw [hb]
      exact List.mem_singleton_self _)
    have hd : findDef stmts x = .ok none := by
      unfold findDef
      rw [defsInAll_eq x stmts (hp.sync m stmts hf), hb]
      rfl
    obtain ⟨⟨is, his, hall⟩, asg, hasg⟩ := readableFile_ok (hp.readable m stmts hf)
    have hex : ∃ i ∈ is, mentions i x := by
      obtain ⟨i, hi, hof⟩ := mapM_mem his hnode
      cases hof
      refine ⟨_, hi, ?_⟩
      unfold mentions
      cases kk with
      | none =>
        left
        have : y = x := by simpa using hkx
        rw [← this]
        exact List.mem_map.2 ⟨_, hkk, rfl⟩
      | some kk =>
        right
        have : kk = x := by simpa using hkx
        exact ⟨⟨y, kk⟩, mem_renamesOf.2 hkk, this⟩
    obtain ⟨rs', hget, hback⟩ := getImport_only hall hex honly
    obtain ⟨n, hn⟩ := ih x rs' hback
    refine ⟨n + 1, fun k hk => ?_⟩
    obtain ⟨k, rfl⟩ : ∃ j, k = j + 1 := ⟨k - 1, by omega⟩
    obtain ⟨is2, as2, his2, _, he⟩ := extractDef_step (n := k) hf (hp.readable m stmts hf) hx
    have : is2 = is := by
      have := his2.1
      rw [his] at this
      cases this
      rfl
    subst this
    rw [he, hd]
    show ∃ f, (do let next ← getImport is2 x; extractDef files k x next) = .ok f ∧ f.args = a ∧ decide (f.name = "__init__") = init
    rw [hget]
    exact hn k (by omega)

/-- Two modules for the examples: `main` has `from lib import f as g`, and `lib` defines `f`. -/
def chainFiles (a : Arguments) : ModuleFiles := fun m =>
  if m = "main" then .ok [.imp (.from_ (some "lib") 0 [("f", some "g")])]
  else if m = "lib" then .ok [.assign (.assign [.name "a"] "1"), .block [.func "f" a []]]
  else .error .importError

/-- Non-vacuity: such modules are plain, the name denotes the function, and its parameters are found. -/
example (a : Arguments) : PlainFiles (chainFiles a) ∧ NameDenotes (chainFiles a) "main" "g" false a ∧
    (extractDef (chainFiles a) 2 "g" ⟨some "main", ["g"], [], false⟩).map (fun f => f.name) = .ok "f" := by
  have hcases : ∀ m stmts, chainFiles a m = .ok stmts →
      stmts = [.imp (.from_ (some "lib") 0 [("f", some "g")])] ∨
      stmts = [.assign (.assign [.name "a"] "1"), .block [.func "f" a []]] := by
    intro m stmts h
    unfold chainFiles at h
    split at h
    · cases h; exact .inl rfl
    · split at h
      · cases h; exact .inr rfl
      · cases h
  refine ⟨⟨?_, ?_, ?_, ?_⟩, ?_, by rfl⟩
  · intro m stmts h
    rcases hcases m stmts h with rfl | rfl <;> simp [SyncAll, Sync]
  · intro m stmts h
    rcases hcases m stmts h with rfl | rfl
    · constructor <;> simp [importsInAll, importsIn, assignsInAll, assignsIn]
    · constructor
      · simp [importsInAll, importsIn]
      · intro node hn ts v he
        subst he
        simp [assignsInAll, assignsIn] at hn
        rw [hn.1]
        rfl
  · intro m stmts h x level target y hb
    rcases hcases m stmts h with rfl | rfl
    · by_cases hx : "g" = x
      · subst hx
        simp [bindingsAll, bindings, aliasesOf, aliasBinds] at hb
        obtain ⟨rfl, rfl, rfl⟩ := hb
        exact ⟨"lib", rfl, rfl, by simp [ImportedOnly, importsInAll, importsIn, aliasesOf]⟩
      · simp [bindingsAll, bindings, aliasesOf, aliasBinds, hx] at hb
    · by_cases h1 : "f" = x
      · subst h1
        simp [bindingsAll, bindings, assigns] at hb
      · by_cases h2 : "a" = x
        · subst h2
          simp [bindingsAll, bindings, assigns] at hb
        · simp [bindingsAll, bindings, assigns, h1, h2] at hb
  · intro m stmts h
    rcases hcases m stmts h with rfl | rfl
    · simp [bindingsAll, bindings, aliasesOf, aliasBinds]
    · simp [bindingsAll, bindings, assigns]
  · exact .imported (m' := "lib") (y := "f") (level := 0) (target := some "lib") rfl
      (by simp [bindingsAll, bindings, aliasesOf, aliasBinds]) rfl (.func rfl (by simp [bindingsAll, bindings, assigns]))

/-- C61, for a file without `async` functions: a definition is found exactly if there is one function or class with that name
in the file that has parameters; nothing else is taken for it, and several ones are an error. -/
theorem C61_one_definition (stmts : List PyStmt) (h : SyncAll stmts) (x : String) :
    (∀ d, findDef stmts x = .ok (some d) ↔ (bindingsAll x stmts).flatMap (signatures x) = [d]) ∧
    (findDef stmts x = .ok none ↔ (bindingsAll x stmts).flatMap (signatures x) = []) ∧
    (findDef stmts x = .error .valueError ↔ 2 ≤ ((bindingsAll x stmts).flatMap (signatures x)).length) := by
  unfold findDef
  rw [defsInAll_eq x stmts h]
  generalize (bindingsAll x stmts).flatMap (signatures x) = l
  match l with
  | [] => simp
  | [d] => simp
  | d :: e :: r => simp

/-- C61 and C59 together: the config scaffolded for a function that a name denotes, through any imports and renames, has
exactly the parameters that can be passed to it by keyword, each with its own default. -/
theorem C61_config_partial {setList : List String → List String} (hs : SetList setList) (builtin : String → Bool)
    (annSrc : Ann → Expr) (files : ModuleFiles) (hp : PlainFiles files) (m x : String) (a : Arguments)
    (h : NameDenotes files m x false a) (hv : Valid a) (hpos : a.defaults.length ≤ a.args.length) (name : String)
    (rs : List Rename) (hx : (if name ∈ newNames rs then originalOf rs name else name) = x) :
    ∃ n, ∀ k, n ≤ k → ∀ c, configOfView files k setList builtin annSrc name ⟨some m, [x], rs, false⟩ = .ok c →
      c.values.items = (keywordParams a).map (fun p => (p.1.name, some ((p.2.map Default.src).getD "None"))) := by
  obtain ⟨n, hn⟩ := C61_denoted_partial files hp m x false a h name rs hx
  refine ⟨n, fun k hk c hc => ?_⟩
  obtain ⟨f, hf, ha, hi⟩ := hn k hk
  unfold configOfView at hc
  rw [hf] at hc
  simp only [bind, Except.bind] at hc
  rw [hi, ha] at hc
  exact (C59_config_partial hs builtin annSrc a hv f.imports f.assigns f.module hpos c hc).1

/-- The same for a class: the parameters of its `__init__` after the first one. -/
theorem C61_class_partial {setList : List String → List String} (hs : SetList setList) (builtin : String → Bool)
    (annSrc : Ann → Expr) (files : ModuleFiles) (hp : PlainFiles files) (m x : String) (self : Arg) (rest : List Arg)
    (a : Arguments) (h : NameDenotes files m x true { a with args := self :: rest }) (hv : Valid { a with args := rest })
    (hpos : a.defaults.length ≤ rest.length) (name : String) (rs : List Rename)
    (hx : (if name ∈ newNames rs then originalOf rs name else name) = x) :
    ∃ n, ∀ k, n ≤ k → ∀ c, configOfView files k setList builtin annSrc name ⟨some m, [x], rs, false⟩ = .ok c →
      c.values.items = (keywordParams { a with args := rest }).map
        (fun p => (p.1.name, some ((p.2.map Default.src).getD "None"))) := by
  obtain ⟨n, hn⟩ := C61_denoted_partial files hp m x true _ h name rs hx
  refine ⟨n, fun k hk c hc => ?_⟩
  obtain ⟨f, hf, ha, hi⟩ := hn k hk
  unfold configOfView at hc
  rw [hf] at hc
  simp only [bind, Except.bind] at hc
  rw [hi, ha] at hc
  have hfc : functionCfg setList builtin annSrc true { a with args := self :: rest } f.imports f.assigns f.module =
      functionCfg setList builtin annSrc false { a with args := rest } f.imports f.assigns f.module := rfl
  rw [hfc] at hc
  exact (C59_config_partial hs builtin annSrc { a with args := rest } hv f.imports f.assigns f.module hpos c hc).1

/-- An import of a name from a module. -/
def importOf (m x : String) : Imp := ⟨some m, [x], [], false⟩

/-- C61 fails for an `async` function: it is not found. -/
theorem C61_async_violated (files : ModuleFiles) (k : Nat) (h : files "lib" = .ok [.async "f" []]) :
    extractDef files (k + 1) "f" (importOf "lib" "f") = .error .importError := by
  rw [extractDef]
  simp only [importOf, fileOfImport, h]
  rfl

/-- C61 fails if an `async` function has a function of the same name in it: that one is taken, although the name is imported
from another module. -/
theorem C61_nested_violated (a b : Arguments) : ∃ files : ModuleFiles, ∀ k,
    (extractDef files (k + 2) "f" (importOf "lib" "f")).map FoundDef.args = .ok a ∧ NameDenotes files "lib" "f" false b := by
  refine ⟨fun m => if m = "lib" then .ok [.imp (.from_ (some "base") 0 [("f", none)]), .async "g" [.func "f" a []]]
    else .ok [.func "f" b []], fun k => ⟨rfl, ?_⟩⟩
  exact .imported (m' := "base") (y := "f") (level := 0) (target := some "base") rfl
    (by simp [bindingsAll, bindings, aliasesOf, aliasBinds]) rfl (.func rfl (by simp [bindingsAll, bindings]))

/-- C61 fails if there are two definitions, such as in `try` and `except`: it is an error. -/
theorem C61_two_violated (files : ModuleFiles) (a b : Arguments) (k : Nat)
    (h : files "lib" = .ok [.block [.func "f" a [], .func "f" b []]]) :
    extractDef files (k + 1) "f" (importOf "lib" "f") = .error .valueError := by
  rw [extractDef]
  simp only [importOf, fileOfImport, h]
  rfl

/-- C61 fails if the function is bound again, as in `f = decorate(f)`: the parameters are those of the first one. -/
theorem C61_rebound_violated (files : ModuleFiles) (a : Arguments) (k : Nat) (value : Expr)
    (h : files "lib" = .ok [.func "f" a [], .assign (.assign [.name "f"] value)]) :
    (extractDef files (k + 1) "f" (importOf "lib" "f")).map FoundDef.args = .ok a ∧
    ∃ stmts, files "lib" = .ok stmts ∧ (bindingsAll "f" stmts).getLast? = some .value := by
  refine ⟨?_, _, h, ?_⟩
  · rw [extractDef]
    simp only [importOf, fileOfImport, h]
    rfl
  · simp [bindingsAll, bindings, assigns]

/-- C61 fails for a class without an `__init__` of its own: it is not found. -/
theorem C61_inherited_violated (files : ModuleFiles) (k : Nat) (h : files "lib" = .ok [.cls "C" [.other]]) :
    extractDef files (k + 1) "C" (importOf "lib" "C") = .error .importError := by
  rw [extractDef]
  simp only [importOf, fileOfImport, h]
  rfl

/-- C61 fails for relative imports: the dots are not looked at, so that the parameters of the function of another module are
taken. -/
theorem C61_relative_violated (a b : Arguments) : ∃ files : ModuleFiles, ∀ k,
    (extractDef files (k + 2) "f" (importOf "p.main" "f")).map FoundDef.args = .ok a ∧
      NameDenotes files "p.main" "f" false b := by
  refine ⟨fun m => if m = "p.main" then .ok [.imp (.from_ (some "lib") 1 [("f", none)])]
    else if m = "lib" then .ok [.func "f" a []] else .ok [.func "f" b []], fun k => ⟨rfl, ?_⟩⟩
  refine .imported (m' := "p.lib") (y := "f") (level := 1) (target := some "lib") rfl
    (by simp [bindingsAll, bindings, aliasesOf, aliasBinds]) (by decide +kernel) (.func rfl (by simp [bindingsAll, bindings]))

/-- C61 fails if a function of the file has an import of the name in its body: that import is followed, although the module
has the name from another one. -/
theorem C61_local_violated (a b c : Arguments) : ∃ files : ModuleFiles, ∀ k,
    (extractDef files (k + 2) "f" (importOf "main" "f")).map FoundDef.args = .ok a ∧ NameDenotes files "main" "f" false b := by
  refine ⟨fun m => if m = "main" then
      .ok [.func "g" c [.imp (.from_ (some "other") 0 [("f", none)])], .imp (.from_ (some "lib") 0 [("f", none)])]
    else if m = "other" then .ok [.func "f" a []] else .ok [.func "f" b []], fun k => ⟨rfl, ?_⟩⟩
  exact .imported (m' := "lib") (y := "f") (level := 0) (target := some "lib") rfl
    (by simp [bindingsAll, bindings, aliasesOf, aliasBinds]) rfl (.func rfl (by simp [bindingsAll, bindings]))

mutual
/-- The statement is an assignment, or has it somewhere in it. -/
inductive Has (node : AssignNode) : PyStmt → Prop
  | here : Has node (.assign node)
  | func {n : String} {a : Arguments} {body : List PyStmt} : HasAny node body → Has node (.func n a body)
  | async {n : String} {body : List PyStmt} : HasAny node body → Has node (.async n body)
  | cls {n : String} {body : List PyStmt} : HasAny node body → Has node (.cls n body)
  | block {body : List PyStmt} : HasAny node body → Has node (.block body)
/-- One of the statements has it. -/
inductive HasAny (node : AssignNode) : List PyStmt → Prop
  | head {s : PyStmt} {rest : List PyStmt} : Has node s → HasAny node (s :: rest)
  | tail {s : PyStmt} {rest : List PyStmt} : HasAny node rest → HasAny node (s :: rest)
end

mutual
theorem mem_assignsIn {node : AssignNode} (s : PyStmt) (h : Has node s) : node ∈ assignsIn s := by
  match s, h with
  | .assign _, .here => simp [assignsIn]
  | .func _ _ body, .func h => rw [assignsIn]; exact mem_assignsInAll body h
  | .async _ body, .async h => rw [assignsIn]; exact mem_assignsInAll body h
  | .cls _ body, .cls h => rw [assignsIn]; exact mem_assignsInAll body h
  | .block body, .block h => rw [assignsIn]; exact mem_assignsInAll body h
theorem mem_assignsInAll {node : AssignNode} (ss : List PyStmt) (h : HasAny node ss) : node ∈ assignsInAll ss := by
  match ss, h with
  | s :: rest, .head h => rw [assignsInAll]; exact List.mem_append_left _ (mem_assignsIn s h)
  | s :: rest, .tail h => rw [assignsInAll]; exact List.mem_append_right _ (mem_assignsInAll rest h)
end

theorem mapM_assign_error {t u : Target} {ts : List Target} {value : Expr} :
    ∀ nodes : List AssignNode, AssignNode.assign (t :: u :: ts) value ∈ nodes →
      ∃ e, nodes.mapM Assign.ofNode = .error e := by
  intro nodes h
  induction nodes with
  | nil => cases h
  | cons n ns ih =>
    rw [List.mapM_cons]
    cases hn : Assign.ofNode n with
    | error e => exact ⟨e, rfl⟩
    | ok a =>
      rcases List.mem_cons.1 h with rfl | h
      · cases hn
      · obtain ⟨e, he⟩ := ih h
        refine ⟨e, ?_⟩
        rw [he]
        rfl

/-- C61 fails if the file has an assignment to several targets anywhere, such as `a = b = 1` in a function or class: nothing is
found in it, whatever else it has. -/
theorem C61_unreadable_violated (files : ModuleFiles) (name : String) (imp : Imp) (stmts : List PyStmt) (k : Nat) (t u : Target)
    (ts : List Target) (value : Expr) (hf : fileOfImport files imp = .ok stmts)
    (h : HasAny (.assign (t :: u :: ts) value) stmts) : ∃ e, extractDef files (k + 1) name imp = .error e := by
  rw [extractDef]
  simp only [hf, bind, Except.bind]
  cases (importsInAll stmts).mapM Imp.ofNode with
  | error e => exact ⟨e, rfl⟩
  | ok is =>
    obtain ⟨e, he⟩ := mapM_assign_error _ (mem_assignsInAll stmts h)
    simp only [he]
    exact ⟨e, rfl⟩

/-- Such a file is readable for Python: the name denotes the function. -/
example (files : ModuleFiles) (a : Arguments) (k : Nat) (t u : Target) (value : Expr)
    (h : files "lib" = .ok [.func "f" a [], .cls "C" [.assign (.assign [t, u] value)]]) :
    (∃ e, extractDef files (k + 1) "f" (importOf "lib" "f") = .error e) ∧ NameDenotes files "lib" "f" false a :=
  ⟨C61_unreadable_violated files "f" _ _ k t u [] value h (.tail (.head (.cls (.head .here)))),
    .func h (by simp [bindingsAll, bindings])⟩

/-- C61 fails for an import of several modules: a definition in the first one is an error, and one that the first
one imports is followed from there. -/
theorem C61_modules_violated (files : ModuleFiles) (m m' x : String) (stmts other : List PyStmt) (k : Nat)
    (hf : files m = .ok stmts) (hf' : files m' = .ok other) (is : List Imp) (as : List Assign)
    (hi : (importsInAll stmts).mapM Imp.ofNode = .ok is) (ha : (assignsInAll stmts).mapM Assign.ofNode = .ok as) :
    (∀ d, findDef stmts x = .ok (some d) → (d.1 = "__init__" → d.2.args ≠ []) →
      extractDef files (k + 1) x ⟨none, [m, m'], [], false⟩ = .error .valueError) ∧
    ∀ next, findDef stmts x = .ok none → getImport is x = .ok next →
      extractDef files (k + 1) x ⟨none, [m, m'], [], false⟩ = extractDef files k x next := by
  have hfile : fileOfImport files ⟨none, [m, m'], [], false⟩ = .ok stmts := by
    simp only [fileOfImport, List.mapM_cons, List.mapM_nil, hf, hf', bind, Except.bind, pure, Except.pure]
  constructor
  · intro d hd _
    rw [extractDef]
    simp only [hfile, newNames, List.map_nil, List.not_mem_nil, if_false, hi, ha, hd, moduleOfImport, bind, Except.bind]
  · intro next hd hn
    rw [extractDef]
    simp only [hfile, newNames, List.map_nil, List.not_mem_nil, if_false, hi, ha, hd, hn, bind, Except.bind]

example : ∃ is as, (importsInAll [.imp (.from_ (some "base") 0 [("f", none)])]).mapM Imp.ofNode = .ok is ∧
    (assignsInAll [.imp (.from_ (some "base") 0 [("f", none)])]).mapM Assign.ofNode = .ok as ∧
    findDef [.imp (.from_ (some "base") 0 [("f", none)])] "f" = .ok none ∧
    getImport is "f" = .ok (importOf "base" "f") := ⟨_, _, rfl, rfl, rfl, rfl⟩

end Verif.Props
