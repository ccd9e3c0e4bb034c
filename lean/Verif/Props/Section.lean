import Verif.Lemmas.RegTree
import Verif.Props.Runner

/-
Property theorems about running and getting sections: C23, C24.
-/

namespace Verif.Props
open Verif.Py Verif.Model

variable {V : Type}

/-! ## Specification -/

/-- Run the paths one after the other and return the results in order. -/
def runEach : List (List String) → RM V (List (RM.RunRes V))
  | [] => pure []
  | q :: qs => do
    let r ← RM.run1 q
    let rs ← runEach qs
    pure (r :: rs)

/-- Get the paths one after the other and return the results in order. -/
def getEach : List (List String) → RM V (List (RM.GetRes V))
  | [] => pure []
  | q :: qs => do
    let r ← RM.get q
    let rs ← getEach qs
    pure (r :: rs)

/-- The paths of the entries of a section. -/
def entryPaths (p : List String) (items : List (String × Reg V)) : List (List String) :=
  items.map (fun e => p ++ [e.1])

/-- The names in a section are different and not names of attributes of collections. -/
structure GoodNames (items : List (String × Reg V)) : Prop where
  nodup : (items.map Prod.fst).Nodup
  unreserved : ∀ e ∈ items, e.1 ∉ registrarReserved

/-- A function or a section that is not of a specific class. -/
def FuncOrSection : Reg V → Prop
  | .item k => k.kind = .func
  | .coll specific _ => specific = false
  | .other => False

mutual
/-- Good names and functions all the way down. -/
inductive GoodTree : Reg V → Prop where
  | item (k : Callable V) : k.kind = .func → GoodTree (.item k)
  | coll (items : List (String × Reg V)) : GoodNames items → GoodTrees items → GoodTree (.coll false items)
/-- The same for the entries of a section. -/
inductive GoodTrees : List (String × Reg V) → Prop where
  | nil : GoodTrees []
  | cons (x : String) (n : Reg V) (rest : List (String × Reg V)) :
    GoodTree n → GoodTrees rest → GoodTrees ((x, n) :: rest)
end

mutual
/-- The paths of the functions below `p`, in definition order. -/
def leaves (p : List String) : Reg V → List (List String)
  | .item _ => [p]
  | .coll _ items => leavesOf p items
  | .other => []
/-- The same for the entries of a section. -/
def leavesOf (p : List String) : List (String × Reg V) → List (List String)
  | [] => []
  | (x, n) :: rest => leaves (p ++ [x]) n ++ leavesOf p rest
end

mutual
/-- The results in a nested result, in order. -/
def flat : RM.RunRes V → List V
  | .one v => [v]
  | .many rs => flats rs
/-- The same for a list of results. -/
def flats : List (RM.RunRes V) → List V
  | [] => []
  | r :: rs => flat r ++ flats rs
end

mutual
/-- The result is nested like the section. -/
inductive Mirrors : Reg V → RM.RunRes V → Prop where
  | item (k : Callable V) (v : V) : Mirrors (.item k) (.one v)
  | coll (b : Bool) (items : List (String × Reg V)) (rs : List (RM.RunRes V)) :
    MirrorsAll items rs → Mirrors (.coll b items) (.many rs)
/-- One result per entry. -/
inductive MirrorsAll : List (String × Reg V) → List (RM.RunRes V) → Prop where
  | nil : MirrorsAll [] []
  | cons (x : String) (n : Reg V) (r : RM.RunRes V) (items : List (String × Reg V)) (rs : List (RM.RunRes V)) :
    Mirrors n r → MirrorsAll items rs → MirrorsAll ((x, n) :: items) (r :: rs)
end

/-! ### Lemmas -/

theorem GoodTrees.mem {items : List (String × Reg V)} (h : GoodTrees items) : ∀ e ∈ items, GoodTree e.2 := by
  induction items with
  | nil => intro e he; cases he
  | cons e items ih =>
    intro e' he'
    cases h with
    | cons x n rest h1 h2 =>
      rcases List.mem_cons.1 he' with h | h
      · subst h; exact h1
      · exact ih h2 e' h

theorem GoodTree.funcOrSection {n : Reg V} (h : GoodTree n) : FuncOrSection n := by
  cases h with
  | item k hk => exact hk
  | coll items _ _ => rfl

theorem FuncOrSection.ne_other {n : Reg V} (h : FuncOrSection n) : n ≠ .other := by
  intro hh; subst hh; exact h

section
variable [BEq V]

theorem evo_runEach (qs : List (List String)) (h : ∀ q ∈ qs, q ≠ []) : Evo (runEach (V := V) qs) := by
  induction qs with
  | nil => exact RM.evo_pure _
  | cons q qs ih =>
    exact RM.evo_bind (RM.evo_run1 (h q List.mem_cons_self))
      (fun _ => RM.evo_bind (ih (fun r hr => h r (List.mem_cons_of_mem _ hr))) (fun _ => RM.evo_pure _))

theorem runItems_eq {r : Registry V} {p : List String} (n : Nat) {items : List (String × Reg V)}
    (hfs : ∀ e ∈ items, FuncOrSection e.2)
    (hl : ∀ e ∈ items, r.lookup (p ++ [e.1]) = .ok e.2) (hd : ∀ e ∈ items, e.2.depth < n) :
    RM.SameOn r (RM.runItems (RM.runSection n) p items) (runEach (entryPaths p items)) := by
  induction items with
  | nil => exact .refl _
  | cons e items ih =>
    have ih := ih (fun e he => hfs e (List.mem_cons_of_mem _ he)) (fun e he => hl e (List.mem_cons_of_mem _ he))
      (fun e he => hd e (List.mem_cons_of_mem _ he))
    have hkeep : RM.KeepsReg (runEach (V := V) (entryPaths p items)) :=
      RM.Evo.keepsReg (evo_runEach _ (by
        intro q hq
        obtain ⟨e, _, rfl⟩ := List.mem_map.1 hq
        simp))
    have hlx := hl e List.mem_cons_self
    have hf := hfs e List.mem_cons_self
    have hdx := hd e List.mem_cons_self
    obtain ⟨x, m⟩ := e
    have hkeepI : ∀ (m : RM V (List (RM.RunRes V))), RM.SameOn r m (runEach (entryPaths p items)) →
        ∀ (c : RM V (RM.RunRes V)), RM.SameOn r c (RM.run1 (p ++ [x])) → RM.KeepsReg c →
        RM.SameOn r (c >>= fun a => m >>= fun as => pure (a :: as)) (runEach (entryPaths p ((x, Reg.other) :: items))) := by
      intro m hm c hc hck
      refine RM.SameOn.bind hc hck (fun a => ?_)
      intro s hs
      rw [M.bind_run, hm s hs, ← M.bind_run]
      rfl
    cases m with
    | other => exact hf.elim
    | coll b its =>
      have hb : b = false := hf
      subst hb
      refine hkeepI _ ih _ ?_ (RM.Evo.keepsReg (RM.evo_runSection n (by simp)))
      intro s hs
      rw [RM.run1_section hlx s hs]
      exact RM.runSection_fuel n _ _ _ hlx hdx
        (Nat.lt_succ_of_le (Registry.lookup_depth hlx)) (by simp) s hs
    | item k =>
      have hk : k.kind = .func := hf
      have hri : RM.runInside p x k = RM.runItem (p ++ [x]) k := by
        unfold RM.runInside RM.runItem
        rw [hk]
      have heq : RM.runItems (RM.runSection n) p ((x, Reg.item k) :: items) =
          ((RM.runItem (p ++ [x]) k >>= fun v => pure (RM.RunRes.one v)) >>= fun a =>
            RM.runItems (RM.runSection n) p items >>= fun as => pure (a :: as)) := by
        show (RM.runInside p x k >>= fun v => RM.runItems (RM.runSection n) p items >>= fun rs =>
          pure (RM.RunRes.one v :: rs)) = _
        rw [hri]
        funext s
        rw [M.bind_run, M.bind_run, M.bind_run]
        cases RM.runItem (p ++ [x]) k s with
        | mk y s' => cases y <;> rfl
      rw [heq]
      refine hkeepI _ ih _ ?_ ?_
      · intro s hs
        rw [RM.run1_item_same hlx s hs]
      · refine RM.Evo.keepsReg (RM.evo_bind ?_ (fun _ => RM.evo_pure _))
        unfold RM.runItem
        rw [hk]
        exact RM.evo_runOneFunc (by simp)

theorem run1_eq {r : Registry V} {p : List String} {items : List (String × Reg V)}
    (hl : r.lookup p = .ok (.coll false items)) (hn : GoodNames items)
    (hfs : ∀ e ∈ items, FuncOrSection e.2) :
    RM.SameOn r (RM.run1 p) (runEach (entryPaths p items) >>= fun rs => pure (.many rs)) := by
  intro s hs
  have hdep := Registry.lookup_depth hl
  rw [Reg.depth] at hdep
  rw [RM.run1_section hl s hs, RM.runSection, RM.SameOn.lookup hl _ s hs]
  simp only
  have := runItems_eq (r := r) (p := p) r.depth hfs
    (fun e he => Registry.lookup_child hl hn.nodup he (hn.unreserved e he) (hfs e he).ne_other)
    (fun e he => by have := Reg.depth_of_mem (x := e.1) (r := e.2) he; omega)
  rw [M.bind_run, M.bind_run, this s hs]

end

/-! ## C23 -/

/-- C23 (missing: sections that contain classes or objects of a specific class, see
`C23_class_in_section_violated`): running a section is running each of its entries, once and in
definition order, and returning the list of the results. -/
theorem C23_run_section_partial [BEq V] (s : RS V) (p : List String) (items : List (String × Reg V))
    (hl : s.reg.lookup p = .ok (.coll false items)) (hn : GoodNames items)
    (hfs : ∀ e ∈ items, FuncOrSection e.2) :
    RM.run1 p s = (runEach (entryPaths p items) >>= fun rs => pure (.many rs)) s :=
  run1_eq hl hn hfs s rfl

/-- Getting the flat results of a run. -/
def flatRun (p : List String) : RM V (List V) := RM.run1 p >>= fun r => pure (flat r)

theorem flats_append (a b : List (RM.RunRes V)) : flats (a ++ b) = flats a ++ flats b := by
  induction a with
  | nil => rfl
  | cons r a ih => rw [List.cons_append, flats, flats, ih, List.append_assoc]

/-- Run the paths one after the other and return the flat results. -/
def flatRuns (qs : List (List String)) : RM V (List V) := runEach qs >>= fun rs => pure (flats rs)

theorem flatRuns_cons (q : List String) (qs : List (List String)) :
    flatRuns (V := V) (q :: qs) = flatRun q >>= fun x => flatRuns qs >>= fun y => pure (x ++ y) := by
  simp [flatRuns, flatRun, runEach, flats]

theorem flatRuns_append (a b : List (List String)) :
    flatRuns (V := V) (a ++ b) = flatRuns a >>= fun x => flatRuns b >>= fun y => pure (x ++ y) := by
  induction a with
  | nil => simp [flatRuns, runEach, flats]
  | cons q a ih => 
    rw [List.cons_append, flatRuns_cons, ih, flatRuns_cons]
    have : ∀ x a : List V, HAppend.hAppend (x ++ a) = fun y => x ++ (a ++ y) := by
      intro x a; funext y; exact List.append_assoc x a y
    simp [this]

theorem flatRuns_singleton (q : List String) : flatRuns (V := V) [q] = flatRun q := by
  simp [flatRuns, flatRun, runEach, flats]

section
variable [BEq V]

theorem keepsReg_flatRun {q : List String} (h : q ≠ []) : RM.KeepsReg (flatRun (V := V) q) :=
  RM.Evo.keepsReg (RM.evo_bind (RM.evo_run1 h) (fun _ => RM.evo_pure _))

theorem keepsReg_flatRuns {qs : List (List String)} (h : ∀ q ∈ qs, q ≠ []) : RM.KeepsReg (flatRuns (V := V) qs) :=
  RM.Evo.keepsReg (RM.evo_bind (evo_runEach qs h) (fun _ => RM.evo_pure _))

theorem flatRun_leaves {r : Registry V} (n : Nat) : ∀ (p : List String) (t : Reg V), t.depth < n →
    GoodTree t → r.lookup p = .ok t → p ≠ [] → RM.SameOn r (flatRun p) (flatRuns (leaves p t)) := by
  induction n with
  | zero => intro p t h; cases h
  | succ n ih =>
    intro p t hd ht hl hp
    cases ht with
    | item k hk =>
      rw [leaves, flatRuns_singleton]
      exact .refl _
    | coll items hn hts =>
      rw [leaves]
      have h1 : RM.SameOn r (flatRun p) (flatRuns (entryPaths p items)) := by
        intro s hs
        unfold flatRun
        rw [M.bind_run, run1_eq hl hn (fun e he => (hts.mem e he).funcOrSection) s hs, ← M.bind_run]
        simp [flatRuns, flat]
      rw [Reg.depth] at hd
      have h2 : ∀ its : List (String × Reg V), (∀ e ∈ its, e ∈ items) → GoodTrees its →
          RM.SameOn r (flatRuns (entryPaths p its)) (flatRuns (leavesOf p its)) := by
        intro its
        induction its with
        | nil => intro _ _; exact .refl _
        | cons e its ih2 =>
          intro hmem hg
          have ih2 := ih2 (fun e he => hmem e (List.mem_cons_of_mem _ he)) (by cases hg; assumption)
          obtain ⟨x, m⟩ := e
          have hmi := hmem (x, m) List.mem_cons_self
          have hgm := hts.mem (x, m) hmi
          have hlm := Registry.lookup_child hl hn.nodup hmi (hn.unreserved _ hmi) hgm.funcOrSection.ne_other
          rw [leavesOf, flatRuns_append]
          show RM.SameOn r (flatRuns ((p ++ [x]) :: entryPaths p its)) _
          rw [flatRuns_cons]
          have hdm := Reg.depth_of_mem hmi
          refine RM.SameOn.bind (ih _ _ (by omega) hgm hlm (by simp)) (keepsReg_flatRun (by simp)) (fun a => ?_)
          refine RM.SameOn.bind ih2 (keepsReg_flatRuns ?_) (fun _ => .refl _)
          intro q hq
          obtain ⟨e, _, rfl⟩ := List.mem_map.1 hq
          simp
      intro s hs
      rw [h1 s hs, h2 items (fun _ h => h) hts s hs]

end

/-- C23 for everything below a section (missing: as above): running a section has the effect and
the results of running each function below it, once and in definition order. -/
theorem C23_each_once_in_order_partial [BEq V] (s : RS V) (p : List String) (t : Reg V) (hp : p ≠ [])
    (hl : s.reg.lookup p = .ok t) (ht : GoodTree t) :
    (RM.run1 p >>= fun r => pure (flat r)) s = (runEach (leaves p t) >>= fun rs => pure (flats rs)) s :=
  flatRun_leaves (t.depth + 1) p t (Nat.lt_succ_self _) ht hl hp s rfl

/-- C23: the results are nested like the sections. -/
theorem C23_nesting_partial [BEq V] (s : RS V) (p : List String) (t : Reg V) (hp : p ≠ [])
    (hl : s.reg.lookup p = .ok t) (ht : GoodTree t) (r : RM.RunRes V) (hr : (RM.run1 p s).1 = .ok r) :
    Mirrors t r := by
  have main : ∀ (n : Nat) (p : List String) (t : Reg V) (s : RS V), t.depth < n → p ≠ [] →
      s.reg.lookup p = .ok t → GoodTree t → ∀ r, (RM.run1 p s).1 = .ok r → Mirrors t r := by
    intro n
    induction n with
    | zero => intro p t s h; cases h
    | succ n ih =>
      intro p t s hd hp hl ht r hr
      cases ht with
      | item k hk =>
        rw [RM.run_item hl, M.bind_run] at hr
        cases hx : RM.runItem p k s with
        | mk y s' =>
          rw [hx] at hr
          cases y with
          | error e => cases hr
          | ok v => simp at hr; subst hr; exact .item k v
      | coll items hn hts =>
        rw [run1_eq hl hn (fun e he => (hts.mem e he).funcOrSection) s rfl] at hr
        rw [Reg.depth] at hd
        have h2 : ∀ (its : List (String × Reg V)) (u : RS V) (rs : List (RM.RunRes V)), u.reg = s.reg →
            (∀ e ∈ its, e ∈ items) → (runEach (entryPaths p its) u).1 = .ok rs → MirrorsAll its rs := by
          intro its
          induction its with
          | nil =>
            intro u rs _ _ h
            have : (.ok [] : Except PyErr (List (RM.RunRes V))) = .ok rs := h
            cases this
            exact .nil
          | cons e its ih2 =>
            intro u rs hu hmem h
            obtain ⟨x, m⟩ := e
            have hmi := hmem (x, m) List.mem_cons_self
            have hgm := hts.mem (x, m) hmi
            have hlm := Registry.lookup_child hl hn.nodup hmi (hn.unreserved _ hmi) hgm.funcOrSection.ne_other
            have hdm := Reg.depth_of_mem hmi
            have h : ((RM.run1 (p ++ [x]) >>= fun r => runEach (entryPaths p its) >>= fun rs => pure (r :: rs)) u).1 =
              .ok rs := h
            rw [M.bind_run] at h
            have hk := (RM.evo_run1 (V := V) (p := p ++ [x]) (by simp) u).reg
            have ihx := ih (p ++ [x]) m u (by omega) (by simp) (by rw [hu]; exact hlm) hgm
            cases hx : RM.run1 (p ++ [x]) u with
            | mk y u' =>
              rw [hx] at h hk ihx
              cases y with
              | error e => cases h
              | ok r1 =>
                simp only at h
                rw [M.bind_run] at h
                have ih2 := ih2 u'
                cases hy : runEach (entryPaths p its) u' with
                | mk z u'' =>
                  rw [hy] at h ih2
                  cases z with
                  | error e => cases h
                  | ok rs1 =>
                    simp at h
                    subst h
                    exact .cons x m r1 its rs1 (ihx r1 rfl)
                      (ih2 rs1 (hk.trans hu) (fun e he => hmem e (List.mem_cons_of_mem _ he)) rfl)
        rw [M.bind_run] at hr
        have h2 := h2 items s
        cases hx : runEach (entryPaths p items) s with
        | mk y s' =>
          rw [hx] at hr h2
          cases y with
          | error e => cases hr
          | ok rs => simp at hr; subst hr; exact .coll false items rs (h2 rs rfl (fun _ h => h) rfl)
  exact main (t.depth + 1) p t s (Nat.lt_succ_self _) hp hl ht r hr

/-- The section `main` of the example project is as required. -/
theorem demo_goodTree : GoodTree (Reg.coll false [("data", .coll false
    [("func", .item demoFunc), ("noargs", .item demoFunc)])]) :=
  .coll _ ⟨by decide, by decide +revert⟩ (.cons _ _ _ (.coll _ ⟨by decide, by decide +revert⟩
    (.cons _ _ _ (.item _ rfl) (.cons _ _ _ (.item _ rfl) .nil))) .nil)

example : (demoRunner demoFunc).reg.lookup ["main"] = .ok (.coll false [("data", .coll false
    [("func", .item demoFunc), ("noargs", .item demoFunc)])]) := rfl

example : ((RM.run1 ["main"] (demoRunner demoFunc)).1.map flat).toOption = some [230, 0] := by decide +kernel

/-- C23 fails for a section that directly contains a class: running the item gives a result,
running the section raises, because the class is looked for under the path of the section. -/
theorem C23_class_in_section_violated :
    (RM.run1 ["main", "data", "func"] (demoRunner demoClass)).1.toOption.isSome = true ∧
    ((RM.run1 ["main", "data"] (demoRunner demoClass)).1.toOption.map flat) = none := by
  decide +kernel

/-- C23 fails for every section whose first item is a class: if the section has a config, as every section there is a file
for has, running it raises a `TypeError`. -/
theorem C23_class_first_violated (s : RS V) (p : List String) (x : String) (k : Callable V) (items : List (String × Reg V))
    (hl : s.reg.lookup p = .ok (.coll false ((x, .item k) :: items))) (hk : k.kind ≠ .func) (c : Conf V) (cm : CM V)
    (hc : CMM.get p s.cm = (.ok (some c), cm)) : RM.run1 p s = (.error .typeError, { s with cm := cm }) := by
  have h1 : RM.funcAndConfig p s = (.error .typeError, { s with cm := cm }) := by
    have g1 : RM.getConfig p s = (.ok c, { s with cm := cm }) := by
      have : RM.liftC (CMM.get p) s = (.ok (some c), { s with cm := cm }) := by unfold RM.liftC; rw [hc]
      exact (M.bind_ok this).trans rfl
    have g2 : RM.lookup p { s with cm := cm } = (.ok (.coll false ((x, .item k) :: items)), { s with cm := cm }) := by
      show M.liftE (s.reg.lookup p) _ = _
      rw [hl]; rfl
    exact (M.bind_ok g1).trans ((M.bind_ok g2).trans rfl)
  have h2 : RM.runInside p x k s = (.error .typeError, { s with cm := cm }) := by
    unfold RM.runInside
    cases hkk : k.kind with
    | func => exact absurd hkk hk
    | klass => exact M.bind_error h1
    | specific => exact M.bind_error h1
  have g0 : RM.lookup p s = (.ok (.coll false ((x, .item k) :: items)), s) := by
    show M.liftE (s.reg.lookup p) _ = _
    rw [hl]; rfl
  have h3 : RM.runSection (s.reg.depth + 1) p s = (.error .typeError, { s with cm := cm }) := by
    rw [RM.runSection]
    refine (M.bind_ok g0).trans (M.bind_error ?_)
    rw [RM.runItems]
    exact M.bind_error h2
  exact (M.bind_ok g0).trans h3

example : ((demoRunner demoClass).reg.lookup ["main", "data"]).toOption.isSome = true ∧
    (CMM.get ["main", "data"] (demoRunner demoClass).cm).1.toOption.isSome = true := by decide +kernel

/-! ## C24 -/

/-- Attributes of collections that are neither collections nor callable. -/
def dataAttributes : List String :=
  ["basepath", "imports", "name", "always_import_strs", "always_assign_strs", "key_attr", "execute_attr", "items", "name_dict"]

/-- Getting or running such an attribute of the collection of a specific class is a `ValueError`, and changes nothing. -/
theorem C24_attribute_value_error (s : RS V) (m x : String) (b : Bool) (items : List (String × Reg V))
    (hm : s.reg.specific.find? (fun e => e.1 = m) = some (m, .coll b items)) (hx : x ∈ dataAttributes) :
    RM.get [m, x] s = (.error .valueError, s) ∧ RM.run1 [m, x] s = (.error .valueError, s) := by
  have hr : x ∈ registrarReserved := by
    simp only [dataAttributes, List.mem_cons, List.not_mem_nil, or_false] at hx
    rcases hx with rfl | rfl | rfl | rfl | rfl | rfl | rfl | rfl | rfl <;> decide
  have hl : s.reg.lookup [m, x] = .ok .other := by
    unfold Registry.lookup
    simp only
    rw [hm]
    simp [Reg.walk, Reg.attr, hr]
  have g0 : RM.lookup [m, x] s = (.ok .other, s) := by
    show M.liftE (s.reg.lookup [m, x]) _ = _
    rw [hl]; rfl
  exact ⟨(M.bind_ok g0).trans rfl, (M.bind_ok g0).trans rfl⟩

example : (⟨[("d", .coll true [])], .coll false []⟩ : Registry Nat).specific.find? (fun e => e.1 = "d") =
    some ("d", .coll true []) := rfl

/-- Only items, none of them a class from the pipeline dictionary. -/
def PlainItem : Reg V → Prop
  | .item k => k.kind ≠ .klass
  | _ => False

/-- The created object, for the result of getting an item. -/
def asObj : RM.GetRes V → List (Obj V)
  | .obj o => [o]
  | _ => []

section
variable [BEq V]

theorem evo_getEach (qs : List (List String)) (h : ∀ q ∈ qs, q ≠ []) : Evo (getEach (V := V) qs) := by
  induction qs with
  | nil => exact RM.evo_pure _
  | cons q qs ih =>
    exact RM.evo_bind (RM.evo_get' (h q List.mem_cons_self))
      (fun _ => RM.evo_bind (ih (fun r hr => h r (List.mem_cons_of_mem _ hr))) (fun _ => RM.evo_pure _))

theorem getItems_eq {r : Registry V} {p : List String} {items : List (String × Reg V)}
    (hpl : ∀ e ∈ items, PlainItem e.2) (hl : ∀ e ∈ items, r.lookup (p ++ [e.1]) = .ok e.2) :
    RM.SameOn r (RM.getItems p items) (getEach (entryPaths p items) >>= fun rs => pure (rs.flatMap asObj)) := by
  induction items with
  | nil => exact .refl _
  | cons e items ih =>
    have ih := ih (fun e he => hpl e (List.mem_cons_of_mem _ he)) (fun e he => hl e (List.mem_cons_of_mem _ he))
    have hlx := hl e List.mem_cons_self
    have hf := hpl e List.mem_cons_self
    obtain ⟨x, m⟩ := e
    cases m with
    | other => exact hf.elim
    | coll b its => exact hf.elim
    | item k =>
      have hk : k.kind ≠ .klass := hf
      have hri : RM.getInside p x k = RM.getItem (p ++ [x]) k := by
        unfold RM.getInside RM.getItem
        cases hkd : k.kind with
        | func => rfl
        | klass => exact absurd hkd hk
        | specific => rfl
      intro s hs
      show (RM.getInside p x k >>= fun o => RM.getItems p items >>= fun os => pure (o :: os)) s =
        ((RM.get (p ++ [x]) >>= fun r => getEach (entryPaths p items) >>= fun rs => pure (r :: rs)) >>=
          fun rs => pure (rs.flatMap asObj)) s
      rw [bind_assoc, M.bind_run (RM.get (p ++ [x])), RM.get_item_same hlx s hs, hri, M.bind_run, M.bind_run]
      have hkr := (RM.evo_getItem (V := V) (p := p ++ [x]) (by simp) k s).reg
      cases hx : RM.getItem (p ++ [x]) k s with
      | mk y s' =>
        rw [hx] at hkr
        cases y with
        | error e => rfl
        | ok o =>
          simp only [M.pure_run]
          rw [M.bind_run, ih s' (hkr.trans hs), ← M.bind_run]
          simp [asObj]

theorem getSubs_eq {r : Registry V} {p : List String} (n : Nat) {items : List (String × Reg V)}
    (hc : ∀ e ∈ items, e.2.isColl = true) (hl : ∀ e ∈ items, r.lookup (p ++ [e.1]) = .ok e.2)
    (hd : ∀ e ∈ items, e.2.depth < n) (hn : (items.map Prod.fst).Nodup) :
    ∀ acc : List (String × RM.GetRes V), (∀ e ∈ items, e.1 ∉ acc.map Prod.fst) →
    RM.SameOn r (RM.getSubs (RM.getSection n) p acc items)
      (getEach (entryPaths p items) >>= fun rs => pure (acc ++ (items.map Prod.fst).zip rs)) := by
  induction items with
  | nil =>
    intro acc _ s _
    show (Except.ok acc, s) = (Except.ok (acc ++ []), s)
    rw [List.append_nil]
  | cons e items ih =>
    intro acc hacc
    have hnd := List.nodup_cons.1 hn
    have ih := ih (fun e he => hc e (List.mem_cons_of_mem _ he)) (fun e he => hl e (List.mem_cons_of_mem _ he))
      (fun e he => hd e (List.mem_cons_of_mem _ he)) hnd.2
    have hlx := hl e List.mem_cons_self
    have hf := hc e List.mem_cons_self
    have hdx := hd e List.mem_cons_self
    have hax := hacc e List.mem_cons_self
    obtain ⟨x, m⟩ := e
    cases m with
    | other => cases hf
    | item k => cases hf
    | coll b its =>
      intro s hs
      show (RM.getSection n (p ++ [x]) >>= fun r => RM.getSubs (RM.getSection n) p (AList.set acc x r) items) s =
        ((RM.get (p ++ [x]) >>= fun r => getEach (entryPaths p items) >>= fun rs => pure (r :: rs)) >>=
          fun rs => pure (acc ++ (x :: items.map Prod.fst).zip rs)) s
      rw [bind_assoc, M.bind_run (RM.get (p ++ [x])), RM.get_section hlx s hs,
        ← RM.getSection_fuel n _ _ _ hlx hdx (Nat.lt_succ_of_le (Registry.lookup_depth hlx)) s hs, M.bind_run]
      have hkr := (RM.evo_getSection (V := V) n (p := p ++ [x]) (by simp) s).reg
      cases hx : RM.getSection n (p ++ [x]) s with
      | mk y s' =>
        rw [hx] at hkr
        cases y with
        | error e => rfl
        | ok o =>
          simp only
          rw [AList.set_fresh hax, ih (acc ++ [(x, o)]) ?_ s' (hkr.trans hs)]
          · simp
          · intro e he
            rw [List.map_append, List.mem_append, not_or]
            refine ⟨hacc e (List.mem_cons_of_mem _ he), ?_⟩
            intro hh
            simp at hh
            have hm := List.mem_map_of_mem (f := Prod.fst) he
            rw [hh] at hm
            exact hnd.1 hm

end

/-- C24 for a section of items (missing: classes from the pipeline dictionary, see
`C24_class_in_section_violated`): getting it is getting each item, in order, and returning the
list of the objects. -/
theorem C24_items_partial [BEq V] (s : RS V) (p : List String) (b : Bool) (items : List (String × Reg V))
    (hl : s.reg.lookup p = .ok (.coll b items)) (hn : GoodNames items) (hpl : ∀ e ∈ items, PlainItem e.2) :
    RM.get p s = (getEach (entryPaths p items) >>= fun rs => pure (.list (rs.flatMap asObj))) s := by
  rw [RM.get_section hl s rfl, RM.getSection, RM.SameOn.lookup hl _ s rfl]
  simp only
  rw [if_neg]
  · have hother : ∀ e ∈ items, e.2 ≠ .other := by
      intro e he hh
      have := hpl e he
      rw [hh] at this
      exact this
    have := getItems_eq (r := s.reg) (p := p) hpl
      (fun e he => Registry.lookup_child hl hn.nodup he (hn.unreserved e he) (hother e he)) s rfl
    rw [M.bind_run, this, ← M.bind_run, bind_assoc]
    rfl
  · rw [List.any_eq_true]
    rintro ⟨e, he, hh⟩
    have := hpl e he
    cases h2 : e.2 with
    | coll b its => rw [h2] at this; exact this
    | item k => rw [h2] at hh; cases hh
    | other => rw [h2] at hh; cases hh

/-- C24 for a section of sections: getting it is getting each of them, in order, and returning
them by name. -/
theorem C24_subsections [BEq V] (s : RS V) (p : List String) (b : Bool) (items : List (String × Reg V))
    (hl : s.reg.lookup p = .ok (.coll b items)) (hn : GoodNames items)
    (hc : ∀ e ∈ items, e.2.isColl = true) (hne : items ≠ []) :
    RM.get p s = (getEach (entryPaths p items) >>= fun rs => pure (.dict ((items.map Prod.fst).zip rs))) s := by
  have hdep := Registry.lookup_depth hl
  rw [Reg.depth] at hdep
  rw [RM.get_section hl s rfl, RM.getSection, RM.SameOn.lookup hl _ s rfl]
  simp only
  rw [if_pos]
  · have hother : ∀ e ∈ items, e.2 ≠ .other := by
      intro e he hh
      have := hc e he
      rw [hh] at this
      cases this
    have := getSubs_eq (r := s.reg) (p := p) s.reg.depth hc
      (fun e he => Registry.lookup_child hl hn.nodup he (hn.unreserved e he) (hother e he))
      (fun e he => by have := Reg.depth_of_mem (x := e.1) (r := e.2) he; omega) hn.nodup [] (by simp) s rfl
    rw [M.bind_run, this, ← M.bind_run, bind_assoc]
    rfl
  · obtain ⟨e, rest, rfl⟩ := List.exists_cons_of_ne_nil hne
    rw [List.any_cons, hc e List.mem_cons_self]
    rfl

/-- C24: getting a section with both items and sections raises. -/
theorem C24_mixed_raises (s : RS V) (p : List String) (b : Bool) (items : List (String × Reg V))
    (hl : s.reg.lookup p = .ok (.coll b items)) (h1 : ∃ e ∈ items, e.2.isColl = true)
    (h2 : ∃ e ∈ items, e.2.isColl = false) (r : RM.GetRes V) : (RM.get p s).1 ≠ .ok r := by
  have key : ∀ (f : List String → RM V (RM.GetRes V)) (its : List (String × Reg V)),
      (∃ e ∈ its, e.2.isColl = false) → ∀ acc u rs, (RM.getSubs f p acc its u).1 ≠ .ok rs := by
    intro f its
    induction its with
    | nil => rintro ⟨e, he, _⟩; cases he
    | cons e its ih =>
      rintro ⟨e', he', hh⟩ acc u rs hok
      obtain ⟨x, m⟩ := e
      cases m with
      | item k => cases hok
      | other => cases hok
      | coll b' its' =>
        have hok : ((f (p ++ [x]) >>= fun r => RM.getSubs f p (AList.set acc x r) its) u).1 = .ok rs := hok
        rw [M.bind_run] at hok
        cases hx : f (p ++ [x]) u with
        | mk y u' =>
          rw [hx] at hok
          cases y with
          | error e => cases hok
          | ok a =>
            refine ih ?_ _ u' rs hok
            rcases List.mem_cons.1 he' with h | h
            · subst h; cases hh
            · exact ⟨e', h, hh⟩
  rw [RM.get_section hl s rfl, RM.getSection, RM.SameOn.lookup hl _ s rfl]
  simp only
  rw [if_pos (List.any_eq_true.2 h1), M.bind_run]
  have := key (RM.getSection s.reg.depth) items h2 [] s
  cases hx : RM.getSubs (RM.getSection s.reg.depth) p [] items s with
  | mk y s' =>
    rw [hx] at this
    cases y with
    | error e => simp
    | ok a => exact absurd rfl (this a)

/-- C24: the error is a `ValueError`, and comes with the first item, after the sections before it have been got. -/
theorem C24_mixed_value_error [BEq V] (s t : RS V) (p : List String) (b : Bool) (pre post : List (String × Reg V))
    (x : String) (m : Reg V) (hl : s.reg.lookup p = .ok (.coll b (pre ++ (x, m) :: post)))
    (hn : GoodNames (pre ++ (x, m) :: post)) (hpre : ∀ e ∈ pre, e.2.isColl = true) (hm : m.isColl = false)
    (hsome : ∃ e ∈ pre ++ post, e.2.isColl = true) (rs : List (RM.GetRes V))
    (hgot : getEach (entryPaths p pre) s = (.ok rs, t)) : RM.get p s = (.error .valueError, t) := by
  have happ : ∀ (f : List String → RM V (RM.GetRes V)) (its : List (String × Reg V)) (acc acc' : List (String × RM.GetRes V))
      (u v : RS V), (∀ e ∈ its, e.2.isColl = true) → RM.getSubs f p acc its u = (.ok acc', v) →
      RM.getSubs f p acc (its ++ (x, m) :: post) u = (.error .valueError, v) := by
    intro f its
    induction its with
    | nil =>
      intro acc acc' u v _ h
      cases h
      cases m with
      | item k => rfl
      | other => rfl
      | coll b' its' => cases hm
    | cons e its ih =>
      intro acc acc' u v hc h
      obtain ⟨y, n⟩ := e
      have hy := hc (y, n) List.mem_cons_self
      cases n with
      | item k => cases hy
      | other => cases hy
      | coll b' its' =>
        have h : (f (p ++ [y]) >>= fun r => RM.getSubs f p (AList.set acc y r) its) u = (.ok acc', v) := h
        show (f (p ++ [y]) >>= fun r => RM.getSubs f p (AList.set acc y r) (its ++ (x, m) :: post)) u = _
        rw [M.bind_run] at h ⊢
        cases hx : f (p ++ [y]) u with
        | mk z u' =>
          rw [hx] at h
          cases z with
          | error e => cases h
          | ok a => exact ih _ _ _ _ (fun e he => hc e (List.mem_cons_of_mem _ he)) h
  have hother : ∀ e ∈ pre, e.2 ≠ .other := by
    intro e he hh
    have := hpre e he
    rw [hh] at this
    cases this
  have hmem : ∀ e ∈ pre, e ∈ pre ++ (x, m) :: post := fun e he => List.mem_append_left _ he
  have hdep := Registry.lookup_depth hl
  rw [Reg.depth] at hdep
  have hnd : (pre.map Prod.fst).Nodup := by
    have := hn.nodup
    rw [List.map_append] at this
    exact (List.nodup_append.1 this).1
  have hsub := getSubs_eq (r := s.reg) (p := p) s.reg.depth hpre
    (fun e he => Registry.lookup_child hl hn.nodup (hmem e he) (hn.unreserved e (hmem e he)) (hother e he))
    (fun e he => by have := Reg.depth_of_mem (x := e.1) (r := e.2) (hmem e he); omega) hnd [] (by simp) s rfl
  rw [M.bind_ok hgot] at hsub
  rw [RM.get_section hl s rfl, RM.getSection, RM.SameOn.lookup hl _ s rfl]
  simp only
  rw [if_pos]
  · rw [M.bind_error (happ _ _ _ _ _ _ hpre hsub)]
  · obtain ⟨e, he, hc⟩ := hsome
    refine List.any_eq_true.2 ⟨e, ?_, hc⟩
    rcases List.mem_append.1 he with h | h
    · exact List.mem_append_left _ h
    · exact List.mem_append_right _ (List.mem_cons_of_mem _ h)

/-- Non-vacuity: a section with a section of one function, and then a function. -/
example :
    let s : RS Nat := { demoRunner demoFunc with
      reg := ⟨[], .coll false [("main", .coll false ([("data", .coll false [("func", .item demoFunc)])] ++
        ("f", .item demoFunc) :: []))]⟩ }
    s.reg.lookup ["main"] = .ok (.coll false ([("data", .coll false [("func", .item demoFunc)])] ++
      ("f", .item demoFunc) :: [])) ∧
    GoodNames ([("data", .coll false [("func", .item demoFunc)])] ++ ("f", .item demoFunc) :: []) ∧
    ∃ rs t, getEach (entryPaths ["main"] [("data", Reg.coll false [("func", .item demoFunc)])]) s = (.ok rs, t) :=
  ⟨rfl, ⟨by simp, by simp; decide⟩, _, _, rfl⟩

mutual
/-- Good names all the way down. -/
inductive NamedTree : Reg V → Prop where
  | item (k : Callable V) : NamedTree (.item k)
  | coll (b : Bool) (items : List (String × Reg V)) : GoodNames items → NamedTrees items → NamedTree (.coll b items)
/-- The same for the entries of a section. -/
inductive NamedTrees : List (String × Reg V) → Prop where
  | nil : NamedTrees []
  | cons (x : String) (n : Reg V) (rest : List (String × Reg V)) :
    NamedTree n → NamedTrees rest → NamedTrees ((x, n) :: rest)
end

theorem NamedTrees.mem {items : List (String × Reg V)} (h : NamedTrees items) : ∀ e ∈ items, NamedTree e.2 := by
  induction items with
  | nil => intro e he; cases he
  | cons e items ih =>
    intro e' he'
    cases h with
    | cons x n rest h1 h2 =>
      rcases List.mem_cons.1 he' with h | h
      · subst h; exact h1
      · exact ih h2 e' h

theorem NamedTree.ne_other {n : Reg V} (h : NamedTree n) : n ≠ .other := by
  intro hh; subst hh; cases h

theorem mem_leavesOf {p q : List String} {items : List (String × Reg V)} :
    q ∈ leavesOf p items ↔ ∃ e ∈ items, q ∈ leaves (p ++ [e.1]) e.2 := by
  induction items with
  | nil => simp [leavesOf]
  | cons e items ih =>
    obtain ⟨x, n⟩ := e
    rw [leavesOf, List.mem_append, ih]
    simp

section
variable [BEq V]

theorem created_mono {s t : RS V} (h : RS.Evolves s t) {q : List String} (hq : (created s q).isSome = true) :
    (created t q).isSome = true := by
  obtain ⟨o, ho⟩ := Option.isSome_iff_exists.1 hq
  obtain ⟨o', ho', _⟩ := h.objs q o ho
  show (t.objs.get? q).isSome = true
  rw [ho']; rfl

omit [BEq V] in
theorem getOne_created {p : List String} {s t : RS V} {o : Obj V}
    (h : RM.getOneFunc p s = (.ok o, t) ∨ RM.getOneObj p s = (.ok o, t)) : created t p = some o := by
  rcases h with h | h
  · unfold RM.getOneFunc at h
    rw [M.bind_ok (M.get_run s)] at h
    cases ho : s.objs.get? p with
    | some o1 => rw [ho] at h; cases h; exact ho
    | none =>
      rw [ho] at h
      simp only at h
      rw [M.bind_run] at h
      cases hx : RM.funcAndConfig p s with
      | mk y s1 =>
        rw [hx] at h
        cases y with
        | error e => cases h
        | ok rd =>
          obtain ⟨rg, d⟩ := rd
          cases rg with
          | item k =>
            simp only at h
            rw [M.bind_ok (M.get_run s1)] at h
            cases h
            exact Dict.get?_set_self _ _ _
          | coll b its => cases h
          | other => cases h
  · unfold RM.getOneObj at h
    rw [M.bind_ok (M.get_run s)] at h
    cases ho : s.objs.get? p with
    | some o1 => rw [ho] at h; cases h; exact ho
    | none =>
      rw [ho] at h
      simp only at h
      rw [M.bind_run] at h
      cases hx0 : RM.lookup p s with
      | mk y0 s0 =>
        rw [hx0] at h
        cases y0 with
        | error e => cases h
        | ok rg0 =>
          simp only at h
          rw [M.bind_run] at h
          cases hx : RM.funcAndConfig p s0 with
          | mk y s1 =>
            rw [hx] at h
            cases y with
            | error e => cases h
            | ok rd =>
              obtain ⟨rg, d⟩ := rd
              cases rg with
              | item k =>
                simp only at h
                rw [M.bind_ok (M.get_run s1), M.bind_run, M.liftE_run] at h
                cases hc : RM.construct s1.nextId k d with
                | error e => rw [hc] at h; cases h
                | ok o1 =>
                  rw [hc] at h
                  cases h
                  exact Dict.get?_set_self _ _ _
              | coll b its => cases h
              | other => cases h

theorem getItems_created (p : List String) (items : List (String × Reg V)) : ∀ (s t : RS V) (os : List (Obj V)),
    RM.getItems p items s = (.ok os, t) →
    ∀ q ∈ leavesOf p items, (created t q).isSome = true := by
  induction items with
  | nil => intro s t os _ q hq; cases hq
  | cons e items ih =>
    intro s t os h q hq
    obtain ⟨x, m⟩ := e
    cases m with
    | other => cases h
    | coll b its => cases h
    | item k =>
      have h : (RM.getInside p x k >>= fun o => RM.getItems p items >>= fun os => pure (o :: os)) s = (.ok os, t) := h
      rw [M.bind_run] at h
      cases hx : RM.getInside p x k s with
      | mk y s1 =>
        rw [hx] at h
        cases y with
        | error e => cases h
        | ok o =>
          simp only at h
          rw [M.bind_run] at h
          cases hy : RM.getItems p items s1 with
          | mk z s2 =>
            rw [hy] at h
            cases z with
            | error e => cases h
            | ok os1 =>
              cases h
              rw [leavesOf, leaves, List.mem_append, List.mem_singleton] at hq
              rcases hq with hq | hq
              · subst hq
                have hev := RM.evo_getItems (V := V) (p := p) items s1
                rw [hy] at hev
                refine created_mono hev ?_
                have : created s1 (p ++ [x]) = some o := by
                  apply getOne_created (s := s)
                  unfold RM.getInside at hx
                  cases hk : k.kind with
                  | func => rw [hk] at hx; exact .inl hx
                  | klass => rw [hk] at hx; exact .inl hx
                  | specific => rw [hk] at hx; exact .inr hx
                rw [this]; rfl
              · exact ih s1 _ os1 hy q hq

theorem getSection_created {r : Registry V} (n : Nat) : ∀ (p : List String) (c : Reg V) (s t : RS V)
    (g : RM.GetRes V), s.reg = r → r.lookup p = .ok c → NamedTree c → RM.getSection n p s = (.ok g, t) →
    ∀ q ∈ leaves p c, (created t q).isSome = true := by
  induction n with
  | zero => intro p c s t g _ _ _ h; cases h
  | succ n ih =>
    intro p c s t g hs hl hn h
    rw [RM.getSection, RM.SameOn.lookup hl _ s hs] at h
    cases hn with
    | item k => cases h
    | coll b items hgn hts =>
      simp only at h
      rw [leaves]
      split at h
      · rw [M.bind_run] at h
        have key : ∀ (its : List (String × Reg V)) (acc : List (String × RM.GetRes V)) (u v : RS V)
            (rs : List (String × RM.GetRes V)), u.reg = r → (∀ e ∈ its, e ∈ items) →
            RM.getSubs (RM.getSection n) p acc its u = (.ok rs, v) →
            ∀ q ∈ leavesOf p its, (created v q).isSome = true := by
          intro its
          induction its with
          | nil => intro _ _ _ _ _ _ _ q hq; cases hq
          | cons e its ih2 =>
            intro acc u v rs hu hmem hh q hq
            obtain ⟨x, m⟩ := e
            have hmi := hmem (x, m) List.mem_cons_self
            have hgm := hts.mem (x, m) hmi
            cases m with
            | item k => cases hh
            | other => cases hh
            | coll b' its' =>
              have hlm := Registry.lookup_child hl hgn.nodup hmi (hgn.unreserved _ hmi) hgm.ne_other
              have hh : (RM.getSection n (p ++ [x]) >>= fun r =>
                  RM.getSubs (RM.getSection n) p (AList.set acc x r) its) u = (.ok rs, v) := hh
              rw [M.bind_run] at hh
              have hev := RM.evo_getSection (V := V) n (p := p ++ [x]) (by simp) u
              cases hx : RM.getSection n (p ++ [x]) u with
              | mk y u1 =>
                rw [hx] at hh hev
                cases y with
                | error e => cases hh
                | ok a =>
                  simp only at hh
                  rw [leavesOf, List.mem_append] at hq
                  rcases hq with hq | hq
                  · have hev2 := RM.evo_getSubs (V := V) (fun q hq => RM.evo_getSection n hq) (p := p) its
                      (AList.set acc x a) u1
                    rw [hh] at hev2
                    exact created_mono hev2 (ih _ _ u u1 a hu hlm hgm hx q hq)
                  · exact ih2 _ u1 v rs (hev.reg.trans hu)
                      (fun e he => hmem e (List.mem_cons_of_mem _ he)) hh q hq
        cases hx : RM.getSubs (RM.getSection n) p [] items s with
        | mk y s1 =>
          rw [hx] at h
          cases y with
          | error e => cases h
          | ok rs =>
            cases h
            exact key items [] s _ rs hs (fun _ h => h) hx
      · rw [M.bind_run] at h
        cases hx : RM.getItems p items s with
        | mk y s1 =>
          rw [hx] at h
          cases y with
          | error e => cases h
          | ok os =>
            cases h
            exact getItems_created p items s _ os hx

end

/-- C24: after getting a section, everything below it is created. -/
theorem C24_all_created [BEq V] (s : RS V) (p : List String) (c : Reg V) (hl : s.reg.lookup p = .ok c)
    (hc : c.isColl = true) (hn : NamedTree c) (g : RM.GetRes V) (hg : (RM.get p s).1 = .ok g) :
    ∀ q ∈ leaves p c, (created (RM.get p s).2 q).isSome = true := by
  cases c with
  | item k => cases hc
  | other => cases hc
  | coll b items =>
    rw [RM.get_section hl s rfl] at hg ⊢
    refine getSection_created (r := s.reg) (s.reg.depth + 1) p _ s _ g rfl hl hn ?_
    cases hx : RM.getSection (s.reg.depth + 1) p s with
    | mk y t => rw [hx] at hg; cases hg; rfl

theorem demo_namedTree (k : Callable Nat) : NamedTree (Reg.coll false [("data", .coll false
    [("func", .item k), ("noargs", .item demoFunc)])]) :=
  .coll _ _ ⟨by simp, by simp; decide⟩ (.cons _ _ _ (.coll _ _ ⟨by simp, by simp; decide⟩
    (.cons _ _ _ (.item _) (.cons _ _ _ (.item _) .nil))) .nil)

/-- The example meets the hypotheses, and the result is a dictionary with a list. -/
example : (match (RM.get ["main"] (demoRunner demoFunc)).1 with
    | .ok (.dict [("data", .list os)]) => os.map (fun o => o.kwargs.keys)
    | _ => []) = [["a", "b", "c"], []] := by decide +kernel

/-- C24 fails for classes from the pipeline dictionary: as an item of a section the class is not
created with its configuration but wrapped like a function, which is also what later lookups of the
item itself return. -/
theorem C24_class_in_section_violated :
    ((created (after (demoRunner demoClass) [.get demoPath]) demoPath).map (fun o => o.isPartial)) = some false ∧
    ((created (after (demoRunner demoClass) [.get ["main", "data"]]) demoPath).map (fun o => o.isPartial)) =
      some true := by
  decide +kernel

end Verif.Props
