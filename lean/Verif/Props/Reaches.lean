import Verif.Props.Cascade

/-
Property theorems about which items a change of a config reaches: C102.
-/

namespace Verif.Props
open Verif.Py Verif.Model

variable {V : Type}

/-! ### Specification -/

/-- The item whose configuration an operation changes. -/
def changedItem : GOp V → Option String
  | .get _ => none
  | .update q _ _ _ => some q
  | .refresh q => some q
  | .reset q => some q
  | .used _ _ => none

/-- `x` depends on `p`: its file reads an attribute of `p` in some branch, or `x` used `p` while running. -/
def DependsOn (w : World V) (ops : List (GOp V)) (p x : String) : Prop := Reads (w.files x) p ∨ GOp.used x p ∈ ops

/-- `x` is `q`, or depends on it, or on something that depends on it, and so on. -/
inductive Reached (dep : String → String → Prop) : String → String → Prop
  | self {q} : Reached dep q q
  | next {q p x} : dep q p → Reached dep p x → Reached dep q x

/-- Nothing that was there for `x` has changed.  If its config was not loaded it may be now, with the values its file gives in some
branch and no updates; and its object may have been created. -/
structure Untouched (w : World V) (x : String) (s t : GS V) : Prop where
  config : ∀ c, s.conf x = some c → t.conf x = some c
  object : ∀ o, s.obj x = some o → t.obj x = some o
  loaded : ∀ c, s.conf x = none → t.conf x = some c → Ends (w.files x) c.values ∧ c.applied = Dict.empty

/-- Operations, each of which may have returned, raised or been cut off anywhere. -/
inductive Past [BEq V] (w : World V) : GS V → List (GOp V) → GS V → Prop
  | nil {s} : Past w s [] s
  | step {s o ops n t} : Past w (GM.op w n o s).2 ops t → Past w s (o :: ops) t

/-! ### Lemmas -/

namespace Reaches

theorem refl (w : World V) (x : String) (s : GS V) : Untouched w x s s :=
  ⟨fun _ h => h, fun _ h => h, fun c h h' => by rw [h] at h'; cases h'⟩

theorem trans {w : World V} {x : String} {s t u : GS V} (h : Untouched w x s t) (h' : Untouched w x t u) : Untouched w x s u :=
  ⟨fun c hc => h'.config c (h.config c hc), fun o ho => h'.object o (h.object o ho), fun c hn hc => by
    cases ht : t.conf x with
    | none => exact h'.loaded c ht hc
    | some c1 =>
      have := h'.config c1 ht
      rw [hc] at this
      cases this
      exact h.loaded c hn ht⟩

/-- All records are dependencies. -/
def Records (dep : String → String → Prop) (s : GS V) : Prop := ∀ p x, x ∈ s.forced p → dep p x

/-- The computation leaves `x` alone if `g`, keeps the records within the dependencies, and what it returns satisfies `P`. -/
def Spares (w : World V) (dep : String → String → Prop) (g : Prop) (x : String) {α : Type} (P : α → GS V → Prop) (m : GM V α) : Prop :=
  ∀ s, Records dep s → Records dep (m s).2 ∧ (g → Untouched w x s (m s).2) ∧ ∀ a, (m s).1 = .ok a → P a (m s).2

section
variable {w : World V} {dep : String → String → Prop} {g : Prop} {x : String} {α β : Type}

theorem Spares.pure {P : α → GS V → Prop} (a : α) (h : ∀ s, P a s) : Spares w dep g x P (Pure.pure a) :=
  fun s hs => ⟨hs, fun _ => refl _ _ _, fun b hb => by cases hb; exact h s⟩

theorem Spares.raise {P : α → GS V → Prop} (e : Stop) : Spares w dep g x P (M.raise e) :=
  fun s hs => ⟨hs, fun _ => refl _ _ _, fun b hb => by cases hb⟩

theorem Spares.bind {P : α → GS V → Prop} {Q : β → GS V → Prop} {m : GM V α} {f : α → GM V β} (hm : Spares w dep g x P m)
    (hf : ∀ a s, Records dep s → P a s →
      Records dep (f a s).2 ∧ (g → Untouched w x s (f a s).2) ∧ ∀ b, (f a s).1 = .ok b → Q b (f a s).2) : Spares w dep g x Q (m >>= f) := by
  intro s hs
  obtain ⟨h1, h2, h3⟩ := hm s hs
  rw [M.bind_run]
  cases hr : m s with
  | mk r s' =>
    rw [hr] at h1 h2 h3
    cases r with
    | ok a =>
      obtain ⟨g1, g2, g3⟩ := hf a s' h1 (h3 a rfl)
      exact ⟨g1, fun hg => trans (h2 hg) (g2 hg), g3⟩
    | error e => exact ⟨h1, h2, fun b hb => by cases hb⟩

theorem Spares.bind' {P : α → GS V → Prop} {Q : β → GS V → Prop} {m : GM V α} {f : α → GM V β} (hm : Spares w dep g x P m)
    (hf : ∀ a, Spares w dep g x Q (f a)) : Spares w dep g x Q (m >>= f) :=
  hm.bind (fun a s hs _ => hf a s hs)

theorem Spares.mono {P Q : α → GS V → Prop} {m : GM V α} (hm : Spares w dep g x P m) (h : ∀ a s, P a s → Q a s) : Spares w dep g x Q m :=
  fun s hs => ⟨(hm s hs).1, (hm s hs).2.1, fun a ha => h _ _ ((hm s hs).2.2 a ha)⟩

theorem Spares.tryCatch {P : α → GS V → Prop} {m : GM V α} {f : Stop → GM V α} (hm : Spares w dep g x P m)
    (hf : ∀ e, Spares w dep g x P (f e)) : Spares w dep g x P (M.tryCatch m f) := by
  intro s hs
  obtain ⟨h1, h2, h3⟩ := hm s hs
  unfold M.tryCatch
  cases hr : m s with
  | mk r s' =>
    rw [hr] at h1 h2 h3
    cases r with
    | ok a => exact ⟨h1, h2, h3⟩
    | error e =>
      obtain ⟨g1, g2, g3⟩ := hf e s' h1
      exact ⟨g1, fun hg => trans (h2 hg) (g2 hg), g3⟩

theorem Spares.get : Spares w dep g x (fun a s => a = s) (M.get : GM V (GS V)) :=
  fun s hs => ⟨hs, fun _ => refl _ _ _, fun a ha => by cases ha; rfl⟩

theorem records_addForced {s : GS V} (hs : Records dep s) {d o : String} (h : dep o d) : Records dep (s.addForced d o) := by
  unfold GS.addForced
  split
  · exact hs
  · split
    · exact hs
    · intro p y hy
      by_cases hp : p = o
      · subst hp
        simp only [setAt_same, List.mem_append, List.mem_singleton] at hy
        rcases hy with hy | rfl
        · exact hs _ _ hy
        · exact h
      · simp only [setAt_ne _ _ hp] at hy
        exact hs _ _ hy

theorem untouched_addForced (w : World V) (x : String) (s : GS V) (d o : String) : Untouched w x s (s.addForced d o) := by
  unfold GS.addForced
  split
  · exact refl _ _ _
  · split
    · exact refl _ _ _
    · exact ⟨fun _ h => h, fun _ h => h, fun c h h' => by dsimp only at h'; rw [h] at h'; cases h'⟩

theorem spares_addForced {d o : String} (h : dep o d) : Spares w dep g x (fun _ _ => True) (M.modify (fun s => s.addForced d o)) :=
  fun s hs => ⟨records_addForced hs h, fun _ => untouched_addForced _ _ _ _ _, fun _ _ => trivial⟩

theorem spares_runFile {get : String → GM V (Dict String V)} (hg : ∀ p, Spares w dep g x (fun _ _ => True) (get p)) (q : String)
    (prog : FileProg V) (hr : ∀ p, Reads prog p → dep p q) : Spares w dep g x (fun d _ => Ends prog d) (GM.runFile w get q prog) := by
  induction prog with
  | done d => exact .pure d (fun _ => .done)
  | raise e => exact .raise _
  | read p a next ih =>
    unfold GM.runFile
    refine (spares_addForced (hr p .here)).bind' (fun _ => (hg p).bind' (fun o => ?_))
    cases w.attr p o a with
    | error e => exact .raise _
    | ok v => exact (ih v (fun p' hp' => hr p' (.later hp'))).mono (fun d s hd => .later hd)

theorem spares_confOf {run : GM V (Dict String V)} {q : String} (h : Spares w dep g x (fun d _ => Ends (w.files q) d) run) :
    Spares w dep g x (fun c s => s.conf q = some c) (GM.confOf run q) := by
  intro s hs
  unfold GM.confOf
  rw [M.bind_ok (M.get_run s)]
  cases hc : s.conf q with
  | some c => exact ⟨hs, fun _ => refl _ _ _, fun c' hc' => by cases hc'; exact hc⟩
  | none =>
    dsimp only
    obtain ⟨h1, h2, h3⟩ := h s hs
    rw [M.bind_run]
    cases hr : run s with
    | mk r s' =>
      rw [hr] at h1 h2 h3
      cases r with
      | error e => exact ⟨h1, h2, fun c' hc' => by cases hc'⟩
      | ok d =>
        dsimp only
        rw [M.bind_ok (M.modify_run _ _)]
        refine ⟨h1, fun hg => ?_, fun c' hc' => by cases hc'; exact setAt_same _ _ _⟩
        have h2 := h2 hg
        by_cases hx : x = q
        · subst hx
          refine ⟨(fun c' hc' => by rw [hc] at hc'; cases hc'), h2.object, fun c' _ hc' => ?_⟩
          have : setAt s'.conf x (some (Conf.ofFile (.item []) d)) x = some c' := hc'
          rw [setAt_same] at this
          cases this
          exact ⟨h3 d rfl, rfl⟩
        · have e : setAt s'.conf q (some (Conf.ofFile (.item []) d)) x = s'.conf x := setAt_ne _ _ hx
          exact ⟨fun c' hc' => e.trans (h2.config c' hc'), h2.object, fun c' hn hc' => h2.loaded c' hn (e.symm.trans hc')⟩

theorem spares_getItem (hr : ∀ q p, Reads (w.files q) p → dep p q) (n : Nat) :
    ∀ q, Spares w dep g x (fun _ _ => True) (GM.getItem w n q) := by
  induction n with
  | zero => exact fun q => .raise _
  | succ n ih =>
    intro q s hs
    unfold GM.getItem
    rw [M.bind_ok (M.get_run s)]
    cases ho : s.obj q with
    | some o => exact ⟨hs, fun _ => refl _ _ _, fun _ _ => trivial⟩
    | none =>
      dsimp only
      obtain ⟨h1, h2, h3⟩ := spares_confOf (spares_runFile ih q (w.files q) (hr q)) s hs
      rw [M.bind_run]
      cases hc : GM.confOf (GM.runFile w (GM.getItem w n) q (w.files q)) q s with
      | mk r s' =>
        rw [hc] at h1 h2 h3
        cases r with
        | error e => exact ⟨h1, h2, fun _ _ => trivial⟩
        | ok c =>
          dsimp only
          rw [M.bind_ok (M.modify_run _ _)]
          refine ⟨h1, fun hg => ⟨(h2 hg).config, fun o hox => ?_, (h2 hg).loaded⟩, fun _ _ => trivial⟩
          by_cases hx : x = q
          · subst hx; rw [ho] at hox; cases hox
          · exact (setAt_ne _ _ hx).trans ((h2 hg).object o hox)

theorem spares_evalFile (hr : ∀ q p, Reads (w.files q) p → dep p q) (n : Nat) (q : String) :
    Spares w dep g x (fun d _ => Ends (w.files q) d) (GM.evalFile w n q) :=
  spares_runFile (spares_getItem hr n) q _ (hr q)

theorem spares_setConf {q : String} (hx : g → x ≠ q) (c : Option (Conf V)) :
    Spares w dep g x (fun _ _ => True) (M.modify (fun s => { s with conf := setAt s.conf q c })) := by
  intro s hs
  refine ⟨hs, fun hg => ?_, fun _ _ => trivial⟩
  have e : setAt s.conf q c x = s.conf x := setAt_ne _ _ (hx hg)
  exact ⟨fun c' h => e.trans h, fun _ h => h, fun c' h h' => by
    have := e.symm.trans h'
    rw [h] at this; cases this⟩

theorem spares_setObj {q : String} (hx : g → x ≠ q) (o : Option (Dict String V)) :
    Spares w dep g x (fun _ _ => True) (M.modify (fun s => { s with obj := setAt s.obj q o })) := by
  intro s hs
  refine ⟨hs, fun hg => ?_, fun _ _ => trivial⟩
  have e : setAt s.obj q o x = s.obj x := setAt_ne _ _ (hx hg)
  exact ⟨fun _ h => h, fun o' h => e.trans h, fun c' h h' => by
    have h'' : s.conf x = some c' := h'
    rw [h] at h''; cases h''⟩

theorem spares_each {f : String → GM V Unit} (xs : List String) (h : ∀ q ∈ xs, Spares w dep g x (fun _ _ => True) (f q)) :
    Spares w dep g x (fun _ _ => True) (GM.each f xs) := by
  induction xs with
  | nil => exact .pure () (fun _ => trivial)
  | cons y ys ih =>
    exact (h y List.mem_cons_self).bind' (fun _ => ih (fun q hq => h q (List.mem_cons_of_mem _ hq)))

theorem spares_loop (hv : VisitsAll w) {f : String → GM V Unit} {p : String}
    (h : ∀ q, dep p q → Spares w dep g x (fun _ _ => True) (f q)) (n : Nat) :
    ∀ todo done, (∀ q ∈ todo, dep p q) → Spares w dep g x (fun _ _ => True) (GM.dependentsLoop w f p n todo done) := by
  induction n with
  | zero =>
    intro todo done _
    unfold GM.dependentsLoop
    split
    · exact .pure () (fun _ => trivial)
    · exact .raise _
  | succ n ih =>
    intro todo done ht
    unfold GM.dependentsLoop
    split
    · exact .pure () (fun _ => trivial)
    · refine Spares.get.bind' (fun s => ?_)
      refine (spares_each _ (fun q hq => h q (ht q ((hv s todo q).2 hq)))).bind' (fun _ => ?_)
      refine Spares.get.bind (fun s1 s2 hs2 he => ?_)
      subst he
      dsimp only
      split
      · exact Spares.raise (P := fun _ _ => True) _ _ hs2
      · exact ih _ _ (fun q hq => hs2 p q (List.mem_filter.1 hq).1) _ hs2

theorem spares_apply (hv : VisitsAll w) {f : String → GM V Unit} {q : String} (hx : g → x ≠ q)
    (h : ∀ p, dep q p → Spares w dep g x (fun _ _ => True) (f p)) (n : Nat) (values announced : Dict String V) :
    Spares w dep g x (fun _ _ => True) (GM.applyAndRefresh w f n q values announced) := by
  unfold GM.applyAndRefresh
  refine Spares.get.bind' (fun s => ?_)
  cases s.obj q with
  | none => exact .pure () (fun _ => trivial)
  | some o =>
    dsimp only
    refine (spares_setObj hx _).bind' (fun _ => ?_)
    split
    · exact .raise _
    · unfold GM.refreshDependents
      refine Spares.get.bind (fun s1 s2 hs2 he => ?_)
      subst he
      exact spares_loop hv h n _ _ (fun p hp => hs2 q p hp) _ hs2

theorem spares_refresh [BEq V] (hv : VisitsAll w) (hr : ∀ q p, Reads (w.files q) p → dep p q) (n : Nat) :
    ∀ q, (g → ¬ Reached dep q x) → Spares w dep g x (fun _ _ => True) (GM.refresh w n q) := by
  induction n with
  | zero => exact fun q _ => .raise _
  | succ n ih =>
    intro q hq
    have hx : g → x ≠ q := fun hg h => hq hg (h ▸ .self)
    have he := spares_evalFile (g := g) (x := x) hr n q
    unfold GM.refresh
    refine (spares_confOf he).bind' (fun c => he.bind' (fun d => ?_))
    split
    · exact .pure () (fun _ => trivial)
    · refine he.bind' (fun d' => ?_)
      cases c.refresh d' with
      | error e => exact .raise _
      | ok r =>
        exact (spares_setConf hx _).bind' (fun _ => spares_apply hv hx (fun p hp => ih p (fun hg h => hq hg (.next hp h))) n _ _)

theorem spares_ofExcept (r : Except PyErr α) : Spares w dep g x (fun _ _ => True) (GM.ofExcept r : GM V α) := by
  cases r with
  | ok a => exact .pure a (fun _ => trivial)
  | error e => exact .raise _

/-- Every operation leaves alone what the item it changes does not reach. -/
theorem spares_op [BEq V] (hv : VisitsAll w) (hr : ∀ q p, Reads (w.files q) p → dep p q) (n : Nat) (o : GOp V)
    (hu : ∀ d p, o = .used d p → dep p d) (hx : ∀ q, changedItem o = some q → g → ¬ Reached dep q x) :
    Spares w dep g x (fun _ _ => True) (GM.op w n o) := by
  cases o with
  | get q => exact (spares_getItem hr n q).bind' (fun _ => .pure () (fun _ => trivial))
  | update q d persist kw =>
    have hq := hx q rfl
    have hne : g → x ≠ q := fun hg h => hq hg (h ▸ .self)
    show Spares w dep g x _ (GM.update w n q d persist kw)
    unfold GM.update
    refine (spares_confOf (spares_evalFile hr n q)).bind' (fun c => (spares_ofExcept _).bind' (fun b => ?_))
    split
    · split
      · exact .raise _
      · exact (spares_setConf hne _).bind' (fun _ =>
          spares_apply hv hne (fun p hp => spares_refresh hv hr n p (fun hg h => hq hg (.next hp h))) n _ _)
    · exact .pure () (fun _ => trivial)
  | refresh q => exact spares_refresh hv hr n q (hx q rfl)
  | reset q =>
    have hq := hx q rfl
    have hne : g → x ≠ q := fun hg h => hq hg (h ▸ .self)
    have he := spares_evalFile (g := g) (x := x) hr n q
    show Spares w dep g x _ (GM.reset w n q)
    unfold GM.reset
    refine he.bind' (fun d => ?_)
    refine Spares.bind' (P := fun _ _ => True) (.tryCatch ((spares_confOf he).bind' (fun c => .pure _ (fun _ => trivial))) (fun e => ?_))
      (fun current => ?_)
    · split
      · exact .pure _ (fun _ => trivial)
      · exact .raise _
    · have hrest : ∀ b : Bool, Spares w dep g x (fun _ _ => True) (if b = true then do
          M.modify fun s => { s with conf := setAt s.conf q (some (Conf.ofFile (.item []) d)) }
          GM.applyAndRefresh w (GM.refresh w n) n q d d else pure ()) := by
        intro b
        split
        · exact (spares_setConf hne _).bind' (fun _ =>
            spares_apply hv hne (fun p hp => spares_refresh hv hr n p (fun hg h => hq hg (.next hp h))) n _ _)
        · exact .pure () (fun _ => trivial)
      cases current with
      | none => exact Spares.bind' (P := fun _ _ => True) (.pure _ (fun _ => trivial)) hrest
      | some c => exact (spares_ofExcept _).bind' hrest
  | used d p => exact spares_addForced (hu d p rfl)

theorem past [BEq V] (hv : VisitsAll w) (hr : ∀ q p, Reads (w.files q) p → dep p q) {s t : GS V} {ops : List (GOp V)}
    (h : Past w s ops t) (hs : Records dep s) (hu : ∀ d p, GOp.used d p ∈ ops → dep p d)
    (hx : ∀ o ∈ ops, ∀ q, changedItem o = some q → ¬ Reached dep q x) : Records dep t ∧ Untouched w x s t := by
  induction h with
  | nil => exact ⟨hs, refl _ _ _⟩
  | @step s o ops n t _ ih =>
    obtain ⟨h1, h2, _⟩ := spares_op (g := True) hv hr n o (fun d p he => hu d p (he ▸ List.mem_cons_self))
      (fun q hq _ => hx o List.mem_cons_self q hq) s hs
    obtain ⟨h3, h4⟩ := ih h1 (fun d p hm => hu d p (List.mem_cons_of_mem _ hm)) (fun o' ho' => hx o' (List.mem_cons_of_mem _ ho'))
    exact ⟨h3, trans (h2 trivial) h4⟩

/-- Records never leave the dependencies. -/
theorem past_records [BEq V] (hv : VisitsAll w) (hr : ∀ q p, Reads (w.files q) p → dep p q) {s t : GS V} {ops : List (GOp V)}
    (h : Past w s ops t) (hs : Records dep s) (hu : ∀ d p, GOp.used d p ∈ ops → dep p d) : Records dep t := by
  induction h with
  | nil => exact hs
  | @step s o ops n t _ ih =>
    refine ih ?_ (fun d p hm => hu d p (List.mem_cons_of_mem _ hm))
    exact (spares_op (g := False) (x := "") hv hr n o (fun d p he => hu d p (he ▸ List.mem_cons_self)) (fun _ _ hg => hg.elim) s hs).1

end
end Reaches

/-! ### C102 -/

/-- C102: whatever happened before, and whether the calls return or raise, an item is left alone by all calls that change only items
on which it does not depend, directly or through others. -/
theorem C102_only_dependents [BEq V] (w : World V) (hv : VisitsAll w) (ops ops' : List (GOp V)) (s t : GS V)
    (h : Past w GS.new ops s) (h' : Past w s ops' t) (x : String)
    (hx : ∀ o ∈ ops', ∀ q, changedItem o = some q → ¬ Reached (DependsOn w (ops ++ ops')) q x) : Untouched w x s t := by
  have hr : ∀ q p, Reads (w.files q) p → DependsOn w (ops ++ ops') p q := fun q p hq => .inl hq
  have hs : Reaches.Records (DependsOn w (ops ++ ops')) s :=
    Reaches.past_records hv hr h (fun p y hy => by cases hy) (fun d p hm => .inr (List.mem_append_left _ hm))
  exact (Reaches.past hv hr h' hs (fun d p hm => .inr (List.mem_append_right _ hm)) hx).2

/-- C102: getting an item changes nothing that is there, in the item itself and all others. -/
theorem C102_get [BEq V] (w : World V) (hv : VisitsAll w) (ops : List (GOp V)) (s : GS V) (h : Past w GS.new ops s) (n : Nat)
    (q x : String) : Untouched w x s (GM.op w n (.get q) s).2 :=
  C102_only_dependents w hv ops [.get q] s _ h (.step .nil) x (fun o ho p hp => by
    rw [List.mem_singleton] at ho; subst ho; cases hp)

/-! #### Example: an update of `m.c` leaves `m.b` alone, one of `m.a` does not -/

def demoChangeC : List (GOp Nat) := [.update "m.c" none true (Dict.ofList [("t", 3)])]

theorem demoWorld_reads {x p : String} (h : Reads (demoWorld.files x) p) : p = "m.a" ∨ p = "m.b" := by
  simp only [demoWorld] at h
  split at h
  · cases h
  · split at h
    · cases h with
      | here => exact .inl rfl
      | later h => cases h
    · split at h
      · cases h with
        | here => exact .inr rfl
        | later h => cases h with
          | here => exact .inl rfl
          | later h => cases h
      · split at h
        · cases h with
          | here => exact .inl rfl
          | later h => simp only at h; split at h <;> cases h
        · cases h

theorem demo_not_reached : ¬ Reached (DependsOn demoWorld ([.get "m.c"] ++ demoChangeC)) "m.c" "m.b" := by
  have hdep : ∀ x, ¬ DependsOn demoWorld ([.get "m.c"] ++ demoChangeC) "m.c" x := by
    intro x hd
    rcases hd with hd | hd
    · exact absurd (demoWorld_reads hd) (by decide)
    · simp [demoChangeC] at hd
  generalize ha : "m.c" = a at hdep
  generalize hb : "m.b" = b
  intro h
  cases h with
  | self => rw [← ha] at hb; exact absurd hb (by decide)
  | next hd _ => exact hdep _ hd

example : ∃ s t u, Past demoWorld GS.new [.get "m.c"] s ∧ Past demoWorld s demoChangeC t ∧
    (∀ o ∈ demoChangeC, ∀ q, changedItem o = some q → ¬ Reached (DependsOn demoWorld ([.get "m.c"] ++ demoChangeC)) q "m.b") ∧
    configured t "m.c" "t" = some 3 ∧ configured t "m.b" "y" = some 11 ∧
    Past demoWorld s [.update "m.a" none true (Dict.ofList [("x", 2)])] u ∧ configured u "m.b" "y" = some 12 := by
  refine ⟨_, _, _, .step (n := 9) .nil, .step (n := 9) .nil, ?_, ?_, ?_, .step (n := 9) .nil, ?_⟩
  · intro o ho q hq
    rw [demoChangeC, List.mem_singleton] at ho
    subst ho
    cases hq
    exact demo_not_reached
  · decide +kernel
  · decide +kernel
  · decide +kernel

end Verif.Props
