import Verif.Props.Context

/-
Property theorems about what the code of a config file uses: C112, and C56 for uses at any depth.
-/

namespace Verif.Props
open Verif.Py Verif.Model

/-! ## Specification -/

/-- The context with one more frame. -/
def Ctx.inside (c : Ctx) (f : Frame) : Ctx := { c with stack := c.stack ++ [f] }

mutual
/-- `Comes e c a d o force`: executing the action `a` in the context `c`, inside `e`, comes to a use of the item `o` by `d`, which is the
innermost item being run, or the innermost file being executed when the use is of a view.  Running an item is a use of it when it
ends, and getting it when it makes the object. -/
inductive Comes : Around → Ctx → Act → String → String → Bool → Prop where
  | run {e c p body d} : e.running = some d → ((Act.run p body).exec c).1 = .ok () → Comes e c (.run p body) d p true
  | get {e c p body d} : e.running = some d → p ∉ c.loaded → ((Act.get p body).exec c).1 = .ok () →
      Comes e c (.get p body) d p true
  | view {e c p d} : e.running = some d → Comes e c (.usedView p) d p true
  | select {e c p d} : e.loading = some d → Comes e c (.select p) d p false
  | real {e c p body d} : e.loading = some d → Comes e c (.realItem p body) d p true
  | inAttempt {e c body d o b} : ComesAmong e c body d o b → Comes e c (.attempt body) d o b
  | inRun {e c p body d o b} : ComesAmong (e.inRun p) (Ctx.inside c ⟨p, .run⟩) body d o b → Comes e c (.run p body) d o b
  | inGet {e c p body d o b} : p ∉ c.loaded → ComesAmong e c body d o b → Comes e c (.get p body) d o b
  | inLoad {e c p k body d o b} : ComesAmong (e.inLoad p k) (Ctx.inside c ⟨p, .load k⟩) body d o b →
      Comes e c (.load (.ok p) k body) d o b
  | inReal {e c p body d o b} : ComesAmong e (XM.depForLoading p true c).2 body d o b → Comes e c (.realItem p body) d o b
/-- One of the actions comes to it, and those before it end normally. -/
inductive ComesAmong : Around → Ctx → List Act → String → String → Bool → Prop where
  | here {e c a as d o b} : Comes e c a d o b → ComesAmong e c (a :: as) d o b
  | later {e c a as d o b} : (a.exec c).1 = .ok () → ComesAmong e (a.exec c).2 as d o b → ComesAmong e c (a :: as) d o b
end

/-- The use is in the records. -/
def Noted (c : Ctx) (d o : String) (b : Bool) : Prop := (o, d) ∈ c.deps ∧ (b = true → (o, d) ∈ c.forced)

/-! ## Lemmas -/

theorem Noted.later {c c' : Ctx} {d o : String} {b : Bool} (h : Noted c d o b)
    {L : Nat → Option String → Option String → Prop} {U : String → String → Bool → Prop} (hc : Changed L U c c') : Noted c' d o b :=
  ⟨hc.keepDeps _ h.1, fun hb => hc.keepForced _ (h.2 hb)⟩

theorem depForLoading_noted {c : Ctx} {f p : String} (hf : currentlyLoading c.stack = some f) (h : f ≠ p) (b : Bool) :
    Noted (XM.depForLoading p b c).2 f p b := by
  have : (XM.depForLoading p b c).2 = c.addDep f p b := by
    show (match currentlyLoading c.stack with | none => c | some r => c.addDep r p b) = _
    rw [hf]
  rw [this]
  exact addDep_mem c f p b h

theorem depForRunning_keeps (p : String) (c : Ctx) : ∃ U, Changed (fun _ _ _ => False) U c (XM.depForRunning p true c).2 :=
  ⟨fun _ _ _ => True, depForRunning_changed (fun _ _ => trivial)⟩

/-- What is noted by a body is still noted when its frame has been taken off. -/
theorem tracked_noted {c : Ctx} {f : Frame} {body : List Act} {d o : String} {b : Bool}
    (h : Noted (Act.execs body (Ctx.inside c f)).2 d o b) : Noted (XM.tracked (.ok f) (Act.execs body) c).2 d o b := by
  unfold XM.tracked
  show Noted (match Act.execs body (Ctx.inside c f) with
    | (r, c') => match c'.stack with
      | [] => (.error .indexError, c')
      | _ :: _ => (r, { c' with stack := c'.stack.dropLast }) : Except PyErr Unit × Ctx).2 d o b
  generalize Act.execs body (Ctx.inside c f) = x at h
  obtain ⟨r, c'⟩ := x
  dsimp only
  split
  · exact h
  · exact h

theorem bind_noted {c : Ctx} {m : XM Unit} {k : Unit → XM Unit} {d o : String} {b : Bool} (h : Noted (m c).2 d o b)
    (hk : ∀ c', ∃ L U, Changed L U c' (k () c').2) : Noted ((m >>= k) c).2 d o b := by
  rw [M.bind_run]
  cases hr : m c with
  | mk r c' =>
    rw [hr] at h
    cases r with
    | error e => exact h
    | ok u =>
      obtain ⟨L, U, hc⟩ := hk c'
      exact h.later hc

mutual
theorem comes_noted : ∀ {e : Around} {c : Ctx} {a : Act} {d o : String} {b : Bool}, Comes e c a d o b → e = around c → d ≠ o →
    Noted (a.exec c).2 d o b
  | _, c, _, d, _, _, .run (p := p) (body := body) hr hend, he, hne => by
    subst he
    have h := C56_used_items_partial c d p hr hne (.run p body) hend (.inl ⟨body, rfl⟩)
    exact ⟨h.1, fun _ => h.2⟩
  | _, c, _, d, _, _, .get (p := p) (body := body) hr hp hend, he, hne => by
    subst he
    have h := C56_used_items_partial c d p hr hne (.get p body) hend (.inr (.inr ⟨hp, body, rfl⟩))
    exact ⟨h.1, fun _ => h.2⟩
  | _, c, _, d, _, _, .view (p := p) hr, he, hne => by
    subst he
    have h := C56_used_items_partial c d p hr hne (.usedView p) rfl (.inr (.inl rfl))
    exact ⟨h.1, fun _ => h.2⟩
  | _, c, _, d, _, _, .select (p := p) hl, he, hne => by
    subst he
    exact depForLoading_noted hl hne false
  | _, c, _, d, _, _, .real (p := p) (body := body) hl, he, hne => by
    subst he
    exact bind_noted (m := XM.depForLoading p true) (k := fun _ => Act.execs body) (depForLoading_noted hl hne true)
      (fun c' => ⟨_, _, execs_changed body c'⟩)
  | _, c, _, d, o, b, .inAttempt (body := body) h, he, hne => by
    have h' := comesAmong_noted h he hne
    show Noted (M.tryCatch (Act.execs body) (fun _ => pure ()) c).2 d o b
    unfold M.tryCatch
    cases hr : Act.execs body c with
    | mk r c' =>
      rw [hr] at h'
      cases r <;> exact h'
  | _, c, _, d, o, b, .inRun (p := p) (body := body) h, he, hne => by
    have h' := comesAmong_noted h (by rw [he]; exact (around_run c p).symm) hne
    exact bind_noted (m := XM.tracked (.ok ⟨p, .run⟩) (Act.execs body)) (k := fun _ => XM.depForRunning p true) (tracked_noted h')
      (fun c' => ⟨_, depForRunning_keeps p c'⟩)
  | _, c, _, d, o, b, .inGet (p := p) (body := body) hp h, he, hne => by
    have h' := comesAmong_noted h he hne
    show Noted ((M.get >>= fun c' => _) c).2 d o b
    rw [M.bind_ok (M.get_run c)]
    simp only [hp, if_false]
    refine bind_noted h' (fun c' => ?_)
    obtain ⟨U, hU⟩ := depForRunning_keeps p { c' with loaded := c'.loaded ++ [p] }
    refine ⟨_, U, Changed.trans (c' := { c' with loaded := c'.loaded ++ [p] }) ?_ hU⟩
    exact ⟨rfl, ⟨[], by simp⟩, fun _ h => .inl h, fun _ h => .inl h, fun _ h => h, fun _ h => h,
      fun _ h => List.mem_append.2 (.inl h), fun h => h⟩
  | _, c, _, d, o, b, .inLoad (p := p) (k := k) (body := body) h, he, hne => by
    have h' := comesAmong_noted h (by rw [he]; exact (around_load c p k).symm) hne
    exact tracked_noted h'
  | _, c, _, d, o, b, .inReal (p := p) (body := body) h, he, hne => by
    have hs : (XM.depForLoading p true c).2.stack = c.stack :=
      (depForLoading_changed (L := fun _ _ _ => False) (U := fun _ _ _ => True) (fun _ _ => trivial)).stack
    have h' := comesAmong_noted h (by rw [he]; unfold around; rw [hs]) hne
    show Noted ((XM.depForLoading p true >>= fun _ => Act.execs body) c).2 d o b
    rw [M.bind_ok (show XM.depForLoading p true c = (.ok (), (XM.depForLoading p true c).2) from rfl)]
    exact h'
theorem comesAmong_noted : ∀ {e : Around} {c : Ctx} {as : List Act} {d o : String} {b : Bool}, ComesAmong e c as d o b →
    e = around c → d ≠ o → Noted (Act.execs as c).2 d o b
  | _, c, _, d, o, b, .here (a := a) (as := as) h, he, hne =>
    bind_noted (m := a.exec) (k := fun _ => Act.execs as) (comes_noted h he hne) (fun c' => ⟨_, _, execs_changed as c'⟩)
  | _, c, _, d, o, b, .later (a := a) (as := as) hok h, he, hne => by
    have hs := C26_balanced a c
    have h' := comesAmong_noted h (by rw [he]; unfold around; rw [hs]) hne
    show Noted ((a.exec >>= fun _ => Act.execs as) c).2 d o b
    have hx : a.exec c = (.ok (), (a.exec c).2) := by rw [← hok]
    rw [M.bind_ok hx]
    exact h'
end

/-! ## C56 and C112 -/

/-- C56 (partial), at any depth: whatever the execution of an action comes to use is recorded for the item that is innermost running,
whatever is run, got, loaded or attempted around it, and whether the action as a whole ends normally or raises. -/
theorem C56_nested_partial (c : Ctx) (a : Act) {d o : String} {b : Bool} (hne : d ≠ o)
    (h : Comes ⟨currentlyRunning c.stack, currentlyLoading c.stack⟩ c a d o b) :
    (o, d) ∈ (a.exec c).2.deps ∧ (b = true → (o, d) ∈ (a.exec c).2.forced) := comes_noted h rfl hne

/-- C112 (partial: views only). While a config file is executed, whatever item its code finds through the selector, and whatever item a view is
looked up for, is recorded for the file when the load ends, whether it ends normally or raises: also when this happens in an item
that is run, in an object that is made or in something that is attempted on the way, unless it is in another file executed there. -/
theorem C112_views_partial (c : Ctx) (file : String) (body : List Act) {o : String} {b : Bool} (hne : file ≠ o)
    (h : ComesAmong ⟨currentlyRunning c.stack, some file⟩ (Ctx.inside c ⟨file, .load .execute⟩) body file o b) :
    (o, file) ∈ ((Act.load (.ok file) .execute body).exec c).2.deps ∧
    (b = true → (o, file) ∈ ((Act.load (.ok file) .execute body).exec c).2.forced) := by
  refine comes_noted (e := around c) (.inLoad ?_) rfl hne
  exact h

/-- C112 (partial: views only). And nothing else is recorded for it by the load: only uses by the file, or by items of that name running in it. -/
theorem C112_only (c : Ctx) (file : String) (body : List Act) (d o : String)
    (h : (o, d) ∈ ((Act.load (.ok file) .execute body).exec c).2.deps) :
    (o, d) ∈ c.deps ∨ ∃ a ∈ body, ∃ b, Uses ⟨currentlyRunning c.stack, some file⟩ a d o b := by
  rcases (C27_only_uses c (.act (.load (.ok file) .execute body))).1 d o h with h | ⟨b, h⟩
  · exact .inl h
  · cases h with
    | inLoad ha hu => exact .inr ⟨_, ha, b, hu⟩

/-- Lasting: the records are there until the context is reset. -/
theorem C112_lasting_partial (c : Ctx) (file : String) (body : List Act) {o : String} {b : Bool} (hne : file ≠ o)
    (h : ComesAmong ⟨currentlyRunning c.stack, some file⟩ (Ctx.inside c ⟨file, .load .execute⟩) body file o b)
    (ops : List CtxOp) (hr : CtxOp.reset ∉ ops) :
    (o, file) ∈ (ops.foldl Ctx.step (c.step (.act (.load (.ok file) .execute body)))).deps :=
  (C27_kept ops hr _).1 _ (C112_views_partial c file body hne h).1

/-- C112 fails for items that the file runs or gets by the manager itself: nothing is recorded for the file, in any context; if an item is
running, it is recorded for this one instead. -/
theorem C112_manager_violated (c : Ctx) (file p : String) (hp : p ∉ c.loaded) (hf : (p, file) ∉ c.deps)
    (hr : currentlyRunning c.stack ≠ some file) (a : Act) (ha : a = .run p [] ∨ a = .get p []) :
    ((Act.load (.ok file) .execute [a]).exec c).1 = .ok () ∧
    (p, file) ∉ ((Act.load (.ok file) .execute [a]).exec c).2.deps ∧
    ∀ r, currentlyRunning c.stack = some r → r ≠ p → (p, r) ∈ ((Act.load (.ok file) .execute [a]).exec c).2.deps := by
  have hload : ∀ (x : List Act) (c : Ctx),
      ((Act.load (.ok file) .execute x).exec c).1 = (Act.execs x (Ctx.inside c ⟨file, .load .execute⟩)).1 := by
    intro x c
    exact tracked_outcome (body := Act.execs x) (execs_changed x (Ctx.inside c ⟨file, .load .execute⟩)).stack
  have hin : p ∉ (Ctx.inside c ⟨file, .load .execute⟩).loaded := hp
  have hend : (a.exec (Ctx.inside c ⟨file, .load .execute⟩)).1 = .ok () := by
    rcases ha with rfl | rfl
    · rw [C26_outcome]
      rfl
    · show ((M.get >>= fun c' => _) (Ctx.inside c ⟨file, .load .execute⟩)).1 = _
      rw [M.bind_ok (M.get_run _)]
      simp only [hin, if_false]
      rfl
  refine ⟨?_, ?_, ?_⟩
  · rw [hload]
    show ((a.exec >>= fun _ => Act.execs []) (Ctx.inside c ⟨file, .load .execute⟩)).1 = _
    rw [M.bind_ok (show a.exec (Ctx.inside c ⟨file, .load .execute⟩) = (.ok (), _) from by rw [← hend])]
    rfl
  · intro h
    rcases C112_only c file [a] file p h with h | ⟨a', ha', b, hu⟩
    · exact hf h
    · rw [List.mem_singleton] at ha'
      subst ha'
      rcases ha with rfl | rfl
      · cases hu with
        | run h => exact hr h
        | inRun h _ => cases h
      · cases hu with
        | get h => exact hr h
        | inGet h _ => cases h
  · intro r hr' hne
    refine (comes_noted (e := around c) (a := .load (.ok file) .execute [a]) (d := r) (o := p) (b := true) (.inLoad (.here ?_)) rfl hne).1
    rcases ha with rfl | rfl
    · exact .run hr' hend
    · exact .get hr' hin hend

/-- C112 fails for what is used in another file that is executed on the way: it is recorded for that file only. -/
theorem C112_inner_violated (c : Ctx) (file inner p : String) (hi : file ≠ inner) (hp : inner ≠ p) (hf : (p, file) ∉ c.deps) :
    (p, inner) ∈ ((Act.load (.ok file) .execute [.load (.ok inner) .execute [.realItem p []]]).exec c).2.deps ∧
    (p, file) ∉ ((Act.load (.ok file) .execute [.load (.ok inner) .execute [.realItem p []]]).exec c).2.deps := by
  refine ⟨(comes_noted (e := around c) (b := true) (.inLoad (.here (.inLoad (.here (.real rfl))))) rfl hp).1, fun h => ?_⟩
  rcases C112_only c file _ file p h with h | ⟨a, ha, b, hu⟩
  · exact hf h
  · rw [List.mem_singleton] at ha
    subst ha
    cases hu with
    | inLoad h hu =>
      rw [List.mem_singleton] at h
      subst h
      cases hu with
      | real h => exact hi (Option.some.inj h).symm
      | inReal h _ => cases h

/-- A config file that, in something attempted, calls a view of an item, whose function uses a view of another one and raises. -/
def demoFileBody : List Act :=
  [.select "m.b", .attempt [.realItem "m.b" [.get "m.b" []], .run "m.b" [.realItem "m.d" [], .usedView "m.d", .raise .valueError]],
   .raise .keyError]

/-- The assumptions hold, and both items are recorded for the file. -/
example : ComesAmong ⟨none, some "m.a"⟩ (Ctx.inside Ctx.new ⟨"m.a", .load .execute⟩) demoFileBody "m.a" "m.d" true ∧
    ((Act.load (.ok "m.a") .execute demoFileBody).exec Ctx.new).2.deps = [("m.b", "m.a"), ("m.d", "m.a"), ("m.d", "m.b")] := by
  refine ⟨.later rfl (.here (.inAttempt (.later rfl (.here (.inRun (.here (.real rfl))))))), rfl⟩

end Verif.Props
