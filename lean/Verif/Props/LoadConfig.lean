import Verif.Model.LoadConfig
import Verif.Model.Runner

/-
Property theorems about loading config files: C70.
-/

namespace Verif.Props
open Verif.Py Verif.Model

variable {V : Type}

/-! ### Specification -/

/-- How a name got its value: by an assignment, or by an import or definition. -/
inductive Kind where
  | assigned
  | brought
deriving DecidableEq

/-- The bindings of a target. -/
inductive BoundBy (py : Python V) (v : V) : CTarget → List (Kind × String × V) → Prop
  | name (x : String) : BoundBy py v (.name x) [(.assigned, x, v)]
  | tuple (xs : List String) (vs : List V) : py.unpack v xs.length = .ok vs →
      BoundBy py v (.tuple xs) ((xs.zip vs).map (fun e => (.assigned, e.1, e.2)))
  | place : BoundBy py v .place []

/-- The bindings of several targets. -/
inductive BoundByAll (py : Python V) (v : V) : List CTarget → List (Kind × String × V) → Prop
  | nil : BoundByAll py v [] []
  | cons (t : CTarget) (ts : List CTarget) (bs bs' : List (Kind × String × V)) :
      BoundBy py v t bs → BoundByAll py v ts bs' → BoundByAll py v (t :: ts) (bs ++ bs')

/-- The names have these values after the bindings. -/
def afterBindings (env : Dict String V) (bs : List (Kind × String × V)) : Dict String V := env.setAll (bs.map Prod.snd)

mutual
/-- The bindings a statement makes, in their order, if it raises nothing. -/
inductive Does (py : Python V) : Dict String V → CStmt V → List (Kind × String × V) → Prop
  | assign (env) (ts : List CTarget) (value) (v : V) (bs) : value env = .ok v → BoundByAll py v ts bs →
      Does py env (.assign ts value) bs
  | annotated (env) (t : CTarget) (value) (v : V) (bs) : value env = .ok v → BoundBy py v t bs →
      Does py env (.annotated t (some value)) bs
  | bare (env) (t : CTarget) : Does py env (.annotated t none) []
  | bring (env) (names : List (String × V)) : Does py env (.bring names) (names.map (fun e => (.brought, e.1, e.2)))
  | skip (env) (executed) (body) : executed env = .ok false → Does py env (.block executed body) []
  | block (env) (executed) (body) (bs) : executed env = .ok true → DoesAll py env body bs →
      Does py env (.block executed body) bs
  | effect (env) (result) : result env = .ok () → Does py env (.effect result) []
/-- The bindings of a list of statements. -/
inductive DoesAll (py : Python V) : Dict String V → List (CStmt V) → List (Kind × String × V) → Prop
  | nil (env) : DoesAll py env [] []
  | cons (env) (s : CStmt V) (ss : List (CStmt V)) (bs bs') : Does py env s bs → DoesAll py (afterBindings env bs) ss bs' →
      DoesAll py env (s :: ss) (bs ++ bs')
end

/-- The last of the bindings of a name. -/
def lastBinding (x : String) (bs : List (Kind × String × V)) : Option (Kind × V) :=
  (bs.reverse.find? (fun b => decide (b.2.1 = x))).map (fun b => (b.1, b.2.2))

mutual
/-- No assignment in the file has several targets. -/
inductive Single : CStmt V → Prop
  | assign (t : CTarget) (value) : Single (.assign [t] value)
  | annotated (t : CTarget) (value) : Single (.annotated t value)
  | bring (names) : Single (.bring names)
  | block (executed) (body) : SingleAll body → Single (.block executed body)
  | effect (result) : Single (.effect result)
/-- The same for a list of statements. -/
inductive SingleAll : List (CStmt V) → Prop
  | nil : SingleAll []
  | cons (s : CStmt V) (ss : List (CStmt V)) : Single s → SingleAll ss → SingleAll (s :: ss)
end

/-- A new module has names that begin with two underscores only. -/
def Python.Plain (py : Python V) : Prop := ∀ x, x ∈ py.init.keys → startsWith x "__" = true

/-! ### Lemmas -/

mutual
theorem check_iff : (s : CStmt V) → (CStmt.check s = .ok () ↔ Single s)
  | .assign [t] value => by simp only [CStmt.check]; exact ⟨fun _ => .assign t value, fun _ => trivial⟩
  | .assign [] value => by
    simp only [CStmt.check]
    exact ⟨fun h => by (cases h), fun h => by (cases h)⟩
  | .assign (_ :: _ :: _) value => by
    simp only [CStmt.check]
    exact ⟨fun h => by (cases h), fun h => by (cases h)⟩
  | .annotated t value => by simp only [CStmt.check]; exact ⟨fun _ => .annotated t value, fun _ => trivial⟩
  | .bring names => by simp only [CStmt.check]; exact ⟨fun _ => .bring names, fun _ => trivial⟩
  | .block executed body => by
    simp only [CStmt.check]
    rw [checkAll_iff body]
    exact ⟨fun h => .block executed body h, fun h => by cases h; assumption⟩
  | .effect result => by simp only [CStmt.check]; exact ⟨fun _ => .effect result, fun _ => trivial⟩

theorem checkAll_iff : (ss : List (CStmt V)) → (CStmt.checkAll ss = .ok () ↔ SingleAll ss)
  | [] => by simp only [CStmt.checkAll]; exact ⟨fun _ => .nil, fun _ => trivial⟩
  | s :: ss => by
    simp only [CStmt.checkAll]
    cases hs : CStmt.check s with
    | error e =>
      refine ⟨fun h => by (cases h), fun h => ?_⟩
      cases h with
      | cons _ _ h1 h2 => rw [(check_iff s).2 h1] at hs; cases hs
    | ok u =>
      show CStmt.checkAll ss = .ok () ↔ _
      rw [checkAll_iff ss]
      exact ⟨fun h => .cons s ss ((check_iff s).1 hs) h, fun h => by cases h; assumption⟩
end

mutual
theorem check_error : (s : CStmt V) → (e : PyErr) → CStmt.check s = .error e → e = .notImplemented
  | .assign [t] value, e, h => by simp only [CStmt.check] at h; cases h
  | .assign [] value, e, h => by simp only [CStmt.check] at h; cases h; rfl
  | .assign (_ :: _ :: _) value, e, h => by simp only [CStmt.check] at h; cases h; rfl
  | .annotated t value, e, h => by simp only [CStmt.check] at h; cases h
  | .bring names, e, h => by simp only [CStmt.check] at h; cases h
  | .block executed body, e, h => by simp only [CStmt.check] at h; exact checkAll_error body e h
  | .effect result, e, h => by simp only [CStmt.check] at h; cases h

theorem checkAll_error : (ss : List (CStmt V)) → (e : PyErr) → CStmt.checkAll ss = .error e → e = .notImplemented
  | [], e, h => by simp only [CStmt.checkAll] at h; cases h
  | s :: ss, e, h => by
    simp only [CStmt.checkAll] at h
    cases hs : CStmt.check s with
    | error e' =>
      rw [hs] at h
      cases h
      exact check_error s e hs
    | ok u =>
      rw [hs] at h
      exact checkAll_error ss e h
end

theorem afterBindings_append (env : Dict String V) (bs bs' : List (Kind × String × V)) :
    afterBindings env (bs ++ bs') = afterBindings (afterBindings env bs) bs' := by
  simp [afterBindings, Dict.setAll, List.foldl_append]

theorem map_snd_kind (k : Kind) (es : List (String × V)) : (es.map (fun e => (k, e.1, e.2))).map Prod.snd = es := by
  induction es with
  | nil => rfl
  | cons e es ih => simp only [List.map_cons, ih]

theorem bindTarget_ok (py : Python V) (t : CTarget) (v : V) (env env' : Dict String V) :
    bindTarget py.unpack t v env = .ok env' ↔ ∃ bs, BoundBy py v t bs ∧ env' = afterBindings env bs := by
  cases t with
  | name x =>
    refine ⟨fun h => ?_, fun ⟨bs, hb, he⟩ => ?_⟩
    · cases h
      exact ⟨_, .name x, rfl⟩
    · cases hb
      rw [he]
      rfl
  | tuple xs =>
    unfold bindTarget
    refine ⟨fun h => ?_, fun ⟨bs, hb, he⟩ => ?_⟩
    · cases hu : py.unpack v xs.length with
      | error e => simp [hu, bind, Except.bind] at h
      | ok vs =>
        simp [hu, bind, Except.bind, pure, Except.pure] at h
        exact ⟨_, .tuple xs vs hu, by rw [afterBindings, map_snd_kind, h]⟩
    · cases hb with
      | tuple _ vs hu =>
        rw [he, afterBindings, map_snd_kind]
        simp [hu, bind, Except.bind, pure, Except.pure]
  | place =>
    refine ⟨fun h => ?_, fun ⟨bs, hb, he⟩ => ?_⟩
    · cases h
      exact ⟨_, .place, rfl⟩
    · cases hb
      rw [he]
      rfl

theorem bindTargets_ok (py : Python V) (ts : List CTarget) (v : V) (env env' : Dict String V) :
    bindTargets py.unpack ts v env = .ok env' ↔ ∃ bs, BoundByAll py v ts bs ∧ env' = afterBindings env bs := by
  induction ts generalizing env with
  | nil =>
    refine ⟨fun h => ?_, fun ⟨bs, hb, he⟩ => ?_⟩
    · cases h
      exact ⟨_, .nil, rfl⟩
    · cases hb
      rw [he]
      rfl
  | cons t ts ih =>
    unfold bindTargets
    refine ⟨fun h => ?_, fun ⟨bs, hb, he⟩ => ?_⟩
    · cases ht : bindTarget py.unpack t v env with
      | error e => simp [ht, bind, Except.bind] at h
      | ok env1 =>
        simp only [ht, bind, Except.bind] at h
        obtain ⟨bs, hb, h1⟩ := (bindTarget_ok py t v env env1).1 ht
        obtain ⟨bs', hb', h2⟩ := (ih env1).1 h
        exact ⟨bs ++ bs', .cons t ts bs bs' hb hb', by rw [h2, h1, afterBindings_append]⟩
    · cases hb with
      | cons _ _ bs bs' hb hb' =>
        have h1 := (bindTarget_ok py t v env (afterBindings env bs)).2 ⟨bs, hb, rfl⟩
        simp only [h1, bind, Except.bind]
        exact (ih (afterBindings env bs)).2 ⟨bs', hb', by rw [he, afterBindings_append]⟩

mutual
theorem exec_ok (py : Python V) : (s : CStmt V) → (env env' : Dict String V) →
    (CStmt.exec py.unpack s env = .ok env' ↔ ∃ bs, Does py env s bs ∧ env' = afterBindings env bs)
  | .assign ts value, env, env' => by
    rw [CStmt.exec]
    cases hv : value env with
    | error e =>
      refine ⟨fun h => by (cases h), fun ⟨bs, hb, he⟩ => ?_⟩
      cases hb with
      | assign _ _ _ v _ h1 h2 => rw [hv] at h1; cases h1
    | ok v =>
      show bindTargets py.unpack ts v env = .ok env' ↔ _
      rw [bindTargets_ok]
      refine ⟨fun ⟨bs, hb, he⟩ => ⟨bs, .assign env ts value v bs hv hb, he⟩, fun ⟨bs, hb, he⟩ => ?_⟩
      cases hb with
      | assign _ _ _ v' _ h1 h2 => rw [hv] at h1; cases h1; exact ⟨bs, h2, he⟩
  | .annotated t (some value), env, env' => by
    rw [CStmt.exec]
    cases hv : value env with
    | error e =>
      refine ⟨fun h => by (cases h), fun ⟨bs, hb, he⟩ => ?_⟩
      cases hb with
      | annotated _ _ _ v _ h1 h2 => rw [hv] at h1; cases h1
    | ok v =>
      show bindTarget py.unpack t v env = .ok env' ↔ _
      rw [bindTarget_ok]
      refine ⟨fun ⟨bs, hb, he⟩ => ⟨bs, .annotated env t value v bs hv hb, he⟩, fun ⟨bs, hb, he⟩ => ?_⟩
      cases hb with
      | annotated _ _ _ v' _ h1 h2 => rw [hv] at h1; cases h1; exact ⟨bs, h2, he⟩
  | .annotated t none, env, env' => by
    rw [CStmt.exec]
    refine ⟨fun h => by cases h; exact ⟨[], .bare env t, rfl⟩, fun ⟨bs, hb, he⟩ => ?_⟩
    cases hb
    rw [he]
    rfl
  | .bring names, env, env' => by
    rw [CStmt.exec]
    refine ⟨fun h => by cases h; exact ⟨_, .bring env names, by rw [afterBindings, map_snd_kind]⟩, fun ⟨bs, hb, he⟩ => ?_⟩
    cases hb
    rw [he, afterBindings, map_snd_kind]
  | .block executed body, env, env' => by
    rw [CStmt.exec]
    cases hx : executed env with
    | error e =>
      refine ⟨fun h => by (cases h), fun ⟨bs, hb, he⟩ => ?_⟩
      cases hb with
      | skip _ _ _ h1 => rw [hx] at h1; cases h1
      | block _ _ _ _ h1 h2 => rw [hx] at h1; cases h1
    | ok b =>
      cases b with
      | false =>
        refine ⟨fun h => by cases h; exact ⟨[], .skip env executed body hx, rfl⟩, fun ⟨bs, hb, he⟩ => ?_⟩
        cases hb with
        | skip => rw [he]; rfl
        | block _ _ _ _ h1 h2 => rw [hx] at h1; cases h1
      | true =>
        show CStmt.execAll py.unpack body env = .ok env' ↔ _
        rw [execAll_ok py body]
        refine ⟨fun ⟨bs, hb, he⟩ => ⟨bs, .block env executed body bs hx hb, he⟩, fun ⟨bs, hb, he⟩ => ?_⟩
        cases hb with
        | skip _ _ _ h1 => rw [hx] at h1; cases h1
        | block _ _ _ _ h1 h2 => exact ⟨bs, h2, he⟩
  | .effect result, env, env' => by
    rw [CStmt.exec]
    cases hr : result env with
    | error e =>
      refine ⟨fun h => by (cases h), fun ⟨bs, hb, he⟩ => ?_⟩
      cases hb with
      | effect _ _ h1 => rw [hr] at h1; cases h1
    | ok u =>
      refine ⟨fun h => by cases h; exact ⟨[], .effect env result hr, rfl⟩, fun ⟨bs, hb, he⟩ => ?_⟩
      cases hb
      rw [he]
      rfl

theorem execAll_ok (py : Python V) : (ss : List (CStmt V)) → (env env' : Dict String V) →
    (CStmt.execAll py.unpack ss env = .ok env' ↔ ∃ bs, DoesAll py env ss bs ∧ env' = afterBindings env bs)
  | [], env, env' => by
    rw [CStmt.execAll]
    refine ⟨fun h => by cases h; exact ⟨[], .nil env, rfl⟩, fun ⟨bs, hb, he⟩ => ?_⟩
    cases hb
    rw [he]
    rfl
  | s :: ss, env, env' => by
    rw [CStmt.execAll]
    cases hs : CStmt.exec py.unpack s env with
    | error e =>
      refine ⟨fun h => by (cases h), fun ⟨bs, hb, he⟩ => ?_⟩
      cases hb with
      | cons _ _ _ bs bs' h1 h2 =>
        rw [(exec_ok py s env _).2 ⟨bs, h1, rfl⟩] at hs
        cases hs
    | ok env1 =>
      show CStmt.execAll py.unpack ss env1 = .ok env' ↔ _
      rw [execAll_ok py ss]
      obtain ⟨bs1, hb1, he1⟩ := (exec_ok py s env env1).1 hs
      refine ⟨fun ⟨bs, hb, he⟩ => ⟨bs1 ++ bs, .cons env s ss bs1 bs hb1 (he1 ▸ hb), by rw [he, he1, afterBindings_append]⟩,
        fun ⟨bs, hb, he⟩ => ?_⟩
      cases hb with
      | cons _ _ _ bs bs' h1 h2 =>
        have := (exec_ok py s env _).2 ⟨bs, h1, rfl⟩
        rw [hs] at this
        cases this
        exact ⟨bs', h2, by rw [he, afterBindings_append]⟩
end

theorem get?_afterBindings (env : Dict String V) (bs : List (Kind × String × V)) (x : String) :
    (afterBindings env bs).get? x = ((lastBinding x bs).map Prod.snd).or (env.get? x) := by
  induction bs generalizing env with
  | nil => rfl
  | cons b bs ih =>
    have h1 : afterBindings env (b :: bs) = afterBindings (env.set b.2.1 b.2.2) bs := rfl
    have h2 : lastBinding x (b :: bs) = (lastBinding x bs).or (if b.2.1 = x then some (b.1, b.2.2) else none) := by
      unfold lastBinding
      rw [List.reverse_cons, List.find?_append]
      cases bs.reverse.find? (fun b => decide (b.2.1 = x)) with
      | some c => rfl
      | none =>
        by_cases h : b.2.1 = x <;> simp [h]
    rw [h1, ih, h2, Dict.get?_set]
    cases hl : lastBinding x bs with
    | some c => rfl
    | none =>
      by_cases h : b.2.1 = x
      · simp [h]
      · simp [h]

theorem get?_userDefined (py : Python V) (env : Dict String V) (x : String) :
    (userDefined py env).get? x = if startsWith x "__" then none else (env.get? x).filter (fun v => ! py.isModule v) := by
  have hnd : ((env.items.filter (fun e => ! (startsWith e.1 "__" || py.isModule e.2))).map Prod.fst).Nodup :=
    AList.nodup_filter env.nodup _
  have h1 : (userDefined py env).get? x =
      AList.get? (env.items.filter (fun e => ! (startsWith e.1 "__" || py.isModule e.2))) x := by
    unfold userDefined Dict.ofList
    rw [Dict.get?_setAll_of_nodup _ hnd, Dict.get?_empty]
    cases AList.get? (env.items.filter (fun e => ! (startsWith e.1 "__" || py.isModule e.2))) x <;> rfl
  rw [h1]
  have h2 : ∀ v, AList.get? (env.items.filter (fun e => ! (startsWith e.1 "__" || py.isModule e.2))) x = some v ↔
      startsWith x "__" = false ∧ py.isModule v = false ∧ env.get? x = some v := by
    intro v
    constructor
    · intro h
      have := AList.mem_of_get? h
      rw [List.mem_filter] at this
      refine ⟨?_, ?_, (Dict.mem_items_iff env x v).1 this.1⟩
      · have h' := this.2; revert h'; cases startsWith x "__" <;> simp
      · have h' := this.2; revert h'; cases py.isModule v <;> simp
    · intro ⟨ha, hb, hc⟩
      apply AList.get?_of_mem hnd
      rw [List.mem_filter]
      exact ⟨(Dict.mem_items_iff env x v).2 hc, by simp [ha, hb]⟩
  apply Option.ext
  intro v
  rw [h2]
  by_cases hs : startsWith x "__" = true
  · simp [hs]
  · simp only [Bool.not_eq_true] at hs
    simp only [hs, Bool.false_eq_true, if_false, true_and]
    cases env.get? x with
    | none => simp
    | some w =>
      simp only [Option.some.injEq, Option.filter]
      by_cases hw : py.isModule w = true
      · simp only [hw, Bool.not_true, Bool.false_eq_true, if_false, reduceCtorEq, iff_false, not_and]
        intro h1 h2
        subst h2
        rw [hw] at h1
        cases h1
      · simp only [Bool.not_eq_true] at hw
        simp only [hw, Bool.not_false, if_true, Option.some.injEq]
        exact ⟨fun h => h.2, fun h => ⟨h ▸ hw, h⟩⟩

/-! ### Theorems -/

/-- C70: what a file gives.  It is loaded iff no assignment has several targets and it raises nothing; then each name has the
value that was bound to it last, except names with two underscores at the beginning and modules. -/
theorem C70_loaded (py : Python V) (hpy : Python.Plain py) (stmts : List (CStmt V)) (d : Dict String V) :
    loadConfigFile py (some stmts) = .ok d →
    SingleAll stmts ∧ ∃ bs, DoesAll py py.init stmts bs ∧
      ∀ x v, d.get? x = some v ↔
        startsWith x "__" = false ∧ py.isModule v = false ∧ (lastBinding x bs).map Prod.snd = some v := by
  intro h
  unfold loadConfigFile at h
  simp only [bind, Except.bind] at h
  cases hc : CStmt.checkAll stmts with
  | error e => rw [hc] at h; cases h
  | ok u =>
    rw [hc] at h
    cases he : CStmt.execAll py.unpack stmts py.init with
    | error e => simp only [he] at h; cases h
    | ok env =>
      simp only [he] at h
      cases h
      obtain ⟨bs, hb, hee⟩ := (execAll_ok py stmts py.init env).1 he
      refine ⟨(checkAll_iff stmts).1 hc, bs, hb, fun x v => ?_⟩
      rw [get?_userDefined, hee, get?_afterBindings]
      by_cases hs : startsWith x "__" = true
      · simp [hs]
      · simp only [Bool.not_eq_true] at hs
        have hn : py.init.get? x = none := by
          rw [Dict.get?_eq_none_iff]
          intro hx
          rw [hpy x hx] at hs
          cases hs
        rw [hn]
        simp only [hs, Bool.false_eq_true, if_false, true_and, Option.or_none]
        cases hl : (lastBinding x bs).map Prod.snd with
        | none => simp
        | some w =>
          simp only [Option.filter, Option.some.injEq]
          by_cases hw : py.isModule w = true
          · simp only [hw, Bool.not_true, Bool.false_eq_true, if_false, reduceCtorEq, false_iff, not_and]
            intro h1 h2
            subst h2
            rw [hw] at h1
            cases h1
          · simp only [Bool.not_eq_true] at hw
            simp only [hw, Bool.not_false, if_true, Option.some.injEq]
            exact ⟨fun h => ⟨h ▸ hw, h⟩, fun h => h.2⟩

/-- C70: a file with such a run is loaded. -/
theorem C70_loads (py : Python V) (stmts : List (CStmt V)) (hs : SingleAll stmts) (bs : List (Kind × String × V))
    (h : DoesAll py py.init stmts bs) : ∃ d, loadConfigFile py (some stmts) = .ok d := by
  have h1 := (checkAll_iff stmts).2 hs
  have h2 := (execAll_ok py stmts py.init _).2 ⟨bs, h, rfl⟩
  refine ⟨userDefined py (afterBindings py.init bs), ?_⟩
  unfold loadConfigFile
  simp only [h1, h2, bind, Except.bind]
  rfl

/-- C70 for files of which no name is bound by an import or a definition, unless it is assigned afterwards, or bound to a
module: the config has exactly the values assigned last, for names without two underscores at the beginning. -/
theorem C70_assigned_partial (py : Python V) (hpy : Python.Plain py) (stmts : List (CStmt V)) (hs : SingleAll stmts)
    (bs : List (Kind × String × V)) (h : DoesAll py py.init stmts bs)
    (hk : ∀ x k v, lastBinding x bs = some (k, v) → if k = .brought then py.isModule v = true else py.isModule v = false)
    (hx : ∀ b ∈ bs, startsWith b.2.1 "__" = false) :
    ∃ d, loadConfigFile py (some stmts) = .ok d ∧
      ∀ x v, d.get? x = some v ↔ lastBinding x bs = some (.assigned, v) := by
  obtain ⟨d, hd⟩ := C70_loads py stmts hs bs h
  refine ⟨d, hd, fun x v => ?_⟩
  -- the run is unique
  have h1 := (checkAll_iff stmts).2 hs
  have h2 := (execAll_ok py stmts py.init _).2 ⟨bs, h, rfl⟩
  have hd' : d = userDefined py (afterBindings py.init bs) := by
    unfold loadConfigFile at hd
    simp only [h1, h2, bind, Except.bind] at hd
    cases hd
    rfl
  rw [hd', get?_userDefined, get?_afterBindings]
  cases hl : lastBinding x bs with
  | none =>
    by_cases hs : startsWith x "__" = true
    · simp [hs]
    · have hn : py.init.get? x = none := by
        rw [Dict.get?_eq_none_iff]
        intro hx
        exact hs (hpy x hx)
      simp [hn]
  | some kw =>
    obtain ⟨k, w⟩ := kw
    have hxx : startsWith x "__" = false := by
      unfold lastBinding at hl
      rw [Option.map_eq_some_iff] at hl
      obtain ⟨b, hb, _⟩ := hl
      have hm := List.mem_of_find?_eq_some hb
      have hp := List.find?_some hb
      rw [← of_decide_eq_true hp]
      exact hx b (by simpa using hm)
    have := hk x k w hl
    cases k with
    | brought =>
      simp only [if_true] at this
      simp [hxx, Option.filter, this]
    | assigned =>
      simp only [reduceCtorEq, if_false] at this
      simp [hxx, Option.filter, this]

/-- C70: what is raised: a file that is not there is an `OSError`, and what executing the file raises is raised. -/
theorem C70_error (py : Python V) (stmts : List (CStmt V)) (e : PyErr) :
    loadConfigFile py none = .error .osError ∧
    (loadConfigFile py (some stmts) = .error e ↔
      (¬ SingleAll stmts ∧ e = .notImplemented) ∨
      (SingleAll stmts ∧ CStmt.execAll py.unpack stmts py.init = .error e)) := by
  refine ⟨rfl, ?_⟩
  unfold loadConfigFile
  simp only [bind, Except.bind]
  cases hc : CStmt.checkAll stmts with
  | error e' =>
    have h1 : ¬ SingleAll stmts := fun h => by rw [(checkAll_iff stmts).2 h] at hc; cases hc
    have h2 := checkAll_error stmts e' hc
    subst h2
    constructor
    · intro h; cases h; exact .inl ⟨h1, rfl⟩
    · rintro (⟨_, rfl⟩ | ⟨h, _⟩)
      · rfl
      · exact absurd h h1
  | ok u =>
    have h1 := (checkAll_iff stmts).1 hc
    cases he : CStmt.execAll py.unpack stmts py.init with
    | error e' =>
      constructor
      · intro h; cases h; exact .inr ⟨h1, rfl⟩
      · rintro (⟨h, _⟩ | ⟨_, h⟩)
        · exact absurd h1 h
        · cases h; rfl
    | ok env =>
      constructor
      · intro h; cases h
      · rintro (⟨h, _⟩ | ⟨_, h⟩)
        · exact absurd h1 h
        · cases h

/-- C70 fails for a file with an assignment to several names: python can execute it, but it is not loaded. -/
theorem C70_chained_violated (py : Python V) (v : V) (rest : List (CStmt V)) :
    loadConfigFile py (some (.assign [.name "a", .name "b"] (fun _ => .ok v) :: rest)) = .error .notImplemented := by
  refine ((C70_error py _ _).2).2 (.inl ⟨fun h => ?_, rfl⟩)
  cases h with
  | cons _ _ h1 _ => cases h1

/-- C70 fails for imports: the file `from m import x` assigns nothing, but its config has `x`. -/
theorem C70_import_violated (py : Python V) (x : String) (v : V) (hx : startsWith x "__" = false)
    (hv : py.isModule v = false) (rest : List (CStmt V)) (bs : List (Kind × String × V)) (d : Dict String V)
    (hrest : DoesAll py (afterBindings py.init [(.brought, x, v)]) rest bs) (hbs : ∀ b ∈ bs, b.2.1 ≠ x)
    (hd : loadConfigFile py (some (.bring [(x, v)] :: rest)) = .ok d) : d.get? x = some v := by
  have h0 : DoesAll py py.init (.bring [(x, v)] :: rest) ([(.brought, x, v)] ++ bs) :=
    .cons _ _ _ _ _ (.bring _ _) hrest
  have h2 := (execAll_ok py _ py.init _).2 ⟨_, h0, rfl⟩
  have hd' : d = userDefined py (afterBindings py.init ([(.brought, x, v)] ++ bs)) := by
    unfold loadConfigFile at hd
    simp only [bind, Except.bind] at hd
    cases hc : CStmt.checkAll (.bring [(x, v)] :: rest) with
    | error e => rw [hc] at hd; cases hd
    | ok u =>
      simp only [hc, h2] at hd
      cases hd
      rfl
  have hl : lastBinding x ([(.brought, x, v)] ++ bs) = some (.brought, v) := by
    unfold lastBinding
    rw [List.reverse_append, List.find?_append]
    have : bs.reverse.find? (fun b => decide (b.2.1 = x)) = none := by
      rw [List.find?_eq_none]
      intro b hb
      simpa using hbs b (by simpa using hb)
    rw [this]
    simp
  rw [hd', get?_userDefined, get?_afterBindings, hl]
  simp [hx, Option.filter, hv]

/-- C70 fails for imports, with effect: if a function has a parameter of that name, it is called with what was imported. -/
theorem C70_passed_violated (py : Python V) (x : String) (v : V) (hx : startsWith x "__" = false)
    (hv : py.isModule v = false) (k : Callable V) (names : List String) (hk : k.sig.argNames false = .ok names)
    (hn : x ∈ names) (c : Conf V) (hc : loadConfigFile py (some [.bring [(x, v)]]) = .ok c.values) :
    ∃ kwargs, RM.forFunction c (.item k) = .ok kwargs ∧ kwargs.get? x = some v := by
  have h := C70_import_violated py x v hx hv [] [] c.values (.nil _) (fun b hb => by cases hb) hc
  refine ⟨c.values.filterKeys (fun x => decide (x ∈ names)), ?_, ?_⟩
  · simp only [RM.forFunction, hk]
  · rw [Dict.get?_filterKeys]
    simp [hn, h]

/-- C70 fails for names that begin with two underscores, and for modules as values: they are left out. -/
theorem C70_left_out_violated (py : Python V) (x : String) (v : V)
    (h : startsWith x "__" = true ∨ py.isModule v = true) :
    ∃ d, loadConfigFile py (some [.assign [.name x] (fun _ => .ok v)]) = .ok d ∧ d.get? x = none := by
  have h0 : DoesAll py py.init [.assign [.name x] (fun _ => .ok v)] ([(.assigned, x, v)] ++ []) :=
    .cons _ _ _ _ _ (.assign _ _ _ v _ rfl (.cons _ _ [(.assigned, x, v)] [] (.name x) .nil)) (.nil _)
  have h2 := (execAll_ok py _ py.init _).2 ⟨_, h0, rfl⟩
  have h1 := (checkAll_iff (V := V) [.assign [.name x] (fun _ => .ok v)]).2 (.cons _ _ (.assign _ _) .nil)
  refine ⟨userDefined py (afterBindings py.init [(.assigned, x, v)]), ?_, ?_⟩
  · unfold loadConfigFile
    simp only [bind, Except.bind, h1, h2]
    rfl
  · rw [get?_userDefined, get?_afterBindings]
    rcases h with h | h
    · simp [h]
    · simp [lastBinding, Option.filter, h]

/-! ### A concrete file -/

/-- Values are numbers, of which 0 is a module. -/
def toyPython : Python Nat := ⟨fun _ _ => .error .typeError, Dict.ofList [("__name__", 1), ("__doc__", 1)], fun v => v == 0⟩

/-- ```
import os
a = 2
b: int = a + 1
if a: a = 4
``` -/
def toyFile : List (CStmt Nat) :=
  [.bring [("os", 0)], .assign [.name "a"] (fun _ => .ok 2),
   .annotated (.name "b") (some (fun env => .ok (env.get? "a").get!.succ)),
   .block (fun _ => .ok true) [.assign [.name "a"] (fun _ => .ok 4)]]

/-- The bindings it makes. -/
def toyBindings : List (Kind × String × Nat) :=
  [(.brought, "os", 0)] ++ ([(.assigned, "a", 2)] ++ ([(.assigned, "b", 3)] ++ ([(.assigned, "a", 4)] ++ [])))

example : Python.Plain toyPython ∧ SingleAll toyFile ∧ DoesAll toyPython toyPython.init toyFile toyBindings := by
  refine ⟨?_, ?_, ?_⟩
  · intro x hx
    have : x ∈ ["__name__", "__doc__"] := hx
    rcases List.mem_cons.1 this with rfl | this
    · decide +kernel
    · rw [List.mem_singleton.1 this]
      decide +kernel
  · exact .cons _ _ (.bring _) (.cons _ _ (.assign _ _) (.cons _ _ (.annotated _ _)
      (.cons _ _ (.block _ _ (.cons _ _ (.assign _ _) .nil)) .nil)))
  · have ha : ∀ n, BoundByAll toyPython n [.name "a"] [(.assigned, "a", n)] := fun n =>
      .cons _ _ [(.assigned, "a", n)] [] (.name "a") .nil
    exact .cons _ _ _ _ _ (.bring _ _) (.cons _ _ _ _ _ (.assign _ _ _ 2 _ rfl (ha 2))
      (.cons _ _ _ _ _ (.annotated _ _ _ 3 _ rfl (.name "b"))
        (.cons _ _ _ [(.assigned, "a", 4)] _ (.block _ _ _ _ rfl (.cons _ _ _ [(.assigned, "a", 4)] []
          (.assign _ _ _ 4 _ rfl (ha 4)) (.nil _))) (.nil _))))

example : (loadConfigFile toyPython (some toyFile)).map (fun d => d.items) = .ok [("a", 4), ("b", 3)] := by
  decide +kernel

/-- The hypothesis of `C70_assigned_partial` about kinds is met. -/
example : (toyBindings.map (fun b => lastBinding b.2.1 toyBindings)) =
    [some (.brought, 0), some (.assigned, 4), some (.assigned, 3), some (.assigned, 4)] := by
  decide +kernel

end Verif.Props
