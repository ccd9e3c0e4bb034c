import Verif.Model.Context
import Verif.Props.Config

/-
C26 (the stack of the context), C27 (dependency records), C30 (item views in updates) and
C56 (items used while running another).
-/

namespace Verif.Props
open Verif.Py Verif.Model

/-! ## Specification

No stack: what is running and being loaded at a place in the code is read off the nesting of
the actions around it. -/

/-- What is going on around an action. -/
structure Around where
  running : Option String
  loading : Option String

/-- Running an item. -/
def Around.inRun (e : Around) (p : String) : Around := { e with running := some p }

/-- Loading a file; only executing it counts. -/
def Around.inLoad (e : Around) (p : String) (k : LoadKind) : Around :=
  if k = .execute then { e with loading := some p } else e

/-- `LooksAt e a n r f`: somewhere in the action `a`, which happens inside `e`, there is the
place `n` where the context is looked at, and the innermost item run around that place is `r`
and the innermost file executed around it is `f`. -/
inductive LooksAt : Around → Act → Nat → Option String → Option String → Prop where
  | here (e n) : LooksAt e (.look n) n e.running e.loading
  | inAttempt {e body a n r f} : a ∈ body → LooksAt e a n r f → LooksAt e (.attempt body) n r f
  | inRun {e p body a n r f} : a ∈ body → LooksAt (e.inRun p) a n r f → LooksAt e (.run p body) n r f
  | inGet {e p body a n r f} : a ∈ body → LooksAt e a n r f → LooksAt e (.get p body) n r f
  | inLoad {e p act body a n r f} : a ∈ body → LooksAt (e.inLoad p act) a n r f →
      LooksAt e (.load (.ok p) act body) n r f
  | inReal {e p body a n r f} : a ∈ body → LooksAt e a n r f → LooksAt e (.realItem p body) n r f

/-- `Uses e a d o force`: somewhere in the action `a`, which happens inside `e`, the item `d`
(the innermost one being run, or the one whose file is being executed) uses the item `o`.  A use
through the selector that does not touch the item itself is not forced. -/
inductive Uses : Around → Act → String → String → Bool → Prop where
  | run {e p body d} : e.running = some d → Uses e (.run p body) d p true
  | get {e p body d} : e.running = some d → Uses e (.get p body) d p true
  | view {e p d} : e.running = some d → Uses e (.usedView p) d p true
  | select {e p d} : e.loading = some d → Uses e (.select p) d p false
  | real {e p body d} : e.loading = some d → Uses e (.realItem p body) d p true
  | inAttempt {e body a d o b} : a ∈ body → Uses e a d o b → Uses e (.attempt body) d o b
  | inRun {e p body a d o b} : a ∈ body → Uses (e.inRun p) a d o b → Uses e (.run p body) d o b
  | inGet {e p body a d o b} : a ∈ body → Uses e a d o b → Uses e (.get p body) d o b
  | inLoad {e p act body a d o b} : a ∈ body → Uses (e.inLoad p act) a d o b →
      Uses e (.load (.ok p) act body) d o b
  | inReal {e p body a d o b} : a ∈ body → Uses e a d o b → Uses e (.realItem p body) d o b

/-- The surroundings a context describes. -/
def around (c : Ctx) : Around := ⟨currentlyRunning c.stack, currentlyLoading c.stack⟩

/-- The rules for records of dependencies. -/
structure SoundRecords (c : Ctx) : Prop where
  noSelf : ∀ x ∈ c.deps, x.1 ≠ x.2
  forcedToo : ∀ x ∈ c.forced, x ∈ c.deps

/-! ## Lemmas -/

theorem mem_addPair {xs : List (String × String)} {x y : String × String} :
    y ∈ addPair xs x ↔ y ∈ xs ∨ y = x := by
  unfold addPair
  split
  · constructor
    · exact .inl
    · rintro (h | rfl) <;> assumption
  · simp

theorem around_run (c : Ctx) (p : String) :
    around { c with stack := c.stack ++ [⟨p, .run⟩] } = (around c).inRun p := by
  simp [around, currentlyRunning, currentlyLoading, Around.inRun]

theorem around_load (c : Ctx) (p : String) (k : LoadKind) :
    around { c with stack := c.stack ++ [⟨p, .load k⟩] } = (around c).inLoad p k := by
  cases k <;> simp [around, currentlyRunning, currentlyLoading, Around.inLoad]

/-- What holds between the contexts before and after: `looks` and `uses` say what may have been
seen and recorded. -/
structure Changed (looks : Nat → Option String → Option String → Prop)
    (uses : String → String → Bool → Prop) (c c' : Ctx) : Prop where
  stack : c'.stack = c.stack
  seen : ∃ new, c'.seen = c.seen ++ new ∧ ∀ x ∈ new, looks x.1 x.2.1 x.2.2
  deps : ∀ x ∈ c'.deps, x ∈ c.deps ∨ (∃ b, uses x.2 x.1 b) ∧ x.2 ≠ x.1
  forced : ∀ x ∈ c'.forced, x ∈ c.forced ∨ uses x.2 x.1 true
  keepDeps : ∀ x ∈ c.deps, x ∈ c'.deps
  keepForced : ∀ x ∈ c.forced, x ∈ c'.forced
  keepLoaded : ∀ x ∈ c.loaded, x ∈ c'.loaded
  sub : (∀ x ∈ c.forced, x ∈ c.deps) → ∀ x ∈ c'.forced, x ∈ c'.deps

namespace Changed
variable {L L' : Nat → Option String → Option String → Prop} {U U' : String → String → Bool → Prop}
  {c c' c'' : Ctx}

theorem refl : Changed L U c c :=
  ⟨rfl, ⟨[], by simp⟩, fun _ h => .inl h, fun _ h => .inl h, fun _ h => h, fun _ h => h, fun _ h => h, fun h => h⟩

theorem mono (h : Changed L U c c') (hL : ∀ n r f, L n r f → L' n r f) (hU : ∀ d o b, U d o b → U' d o b) :
    Changed L' U' c c' := by
  obtain ⟨h1, ⟨new, h2, h3⟩, h4, h5, h6, h7, h8, h9⟩ := h
  refine ⟨h1, ⟨new, h2, fun x hx => hL _ _ _ (h3 x hx)⟩, fun x hx => ?_, fun x hx => ?_, h6, h7, h8, h9⟩
  · rcases h4 x hx with h | ⟨⟨b, h⟩, hne⟩
    · exact .inl h
    · exact .inr ⟨⟨b, hU _ _ _ h⟩, hne⟩
  · exact (h5 x hx).imp id (hU _ _ _)

theorem trans (h : Changed L U c c') (h' : Changed L U c' c'') : Changed L U c c'' := by
  obtain ⟨n1, e1, g1⟩ := h.seen
  obtain ⟨n2, e2, g2⟩ := h'.seen
  refine ⟨h'.stack.trans h.stack, ⟨n1 ++ n2, by rw [e2, e1, List.append_assoc], ?_⟩, ?_, ?_,
    fun x hx => h'.keepDeps x (h.keepDeps x hx), fun x hx => h'.keepForced x (h.keepForced x hx),
    fun x hx => h'.keepLoaded x (h.keepLoaded x hx), fun hs => h'.sub (h.sub hs)⟩
  · intro x hx
    rcases List.mem_append.1 hx with hx | hx
    · exact g1 x hx
    · exact g2 x hx
  · intro x hx
    rcases h'.deps x hx with hx | hx
    · exact h.deps x hx
    · exact .inr hx
  · intro x hx
    rcases h'.forced x hx with hx | hx
    · exact h.forced x hx
    · exact .inr hx

theorem addDep {d o : String} {b : Bool} (h : U d o b) : Changed L U c (c.addDep d o b) := by
  unfold Ctx.addDep
  split
  · exact refl
  · next hne =>
    cases b
    · refine ⟨rfl, ⟨[], by simp⟩, ?_, fun _ h => .inl h, ?_, fun _ h => h, fun _ h => h, ?_⟩
      · intro x hx
        rcases mem_addPair.1 hx with hx | rfl
        · exact .inl hx
        · exact .inr ⟨⟨_, h⟩, hne⟩
      · exact fun x hx => mem_addPair.2 (.inl hx)
      · exact fun hs x hx => mem_addPair.2 (.inl (hs x hx))
    · refine ⟨rfl, ⟨[], by simp⟩, ?_, ?_, ?_, ?_, fun _ h => h, ?_⟩
      · intro x hx
        rcases mem_addPair.1 hx with hx | rfl
        · exact .inl hx
        · exact .inr ⟨⟨_, h⟩, hne⟩
      · intro x hx
        rcases mem_addPair.1 hx with hx | rfl
        · exact .inl hx
        · exact .inr h
      · exact fun x hx => mem_addPair.2 (.inl hx)
      · exact fun x hx => mem_addPair.2 (.inl hx)
      · intro hs x hx
        rcases mem_addPair.1 hx with hx | rfl
        · exact mem_addPair.2 (.inl (hs x hx))
        · exact mem_addPair.2 (.inr rfl)

/-- Only the stack differs from `c`, so what is stated about the rest carries over. -/
theorem popped {stack : List Frame} (h : Changed L U { c with stack := stack } c') (f : List Frame)
    (hf : f = c.stack) : Changed L U c { c' with stack := f } := by
  subst hf
  exact ⟨rfl, h.seen, h.deps, h.forced, h.keepDeps, h.keepForced, h.keepLoaded, h.sub⟩

end Changed

theorem depForRunning_changed {L : Nat → Option String → Option String → Prop}
    {U : String → String → Bool → Prop} {c : Ctx} {p : String} {b : Bool}
    (h : ∀ d, currentlyRunning c.stack = some d → U d p b) :
    Changed L U c (XM.depForRunning p b c).2 := by
  show Changed L U c (match currentlyRunning c.stack with | none => c | some r => c.addDep r p b)
  cases hr : currentlyRunning c.stack with
  | none => exact .refl
  | some r => exact .addDep (h r hr)

theorem depForLoading_changed {L : Nat → Option String → Option String → Prop}
    {U : String → String → Bool → Prop} {c : Ctx} {p : String} {b : Bool}
    (h : ∀ d, currentlyLoading c.stack = some d → U d p b) :
    Changed L U c (XM.depForLoading p b c).2 := by
  show Changed L U c (match currentlyLoading c.stack with | none => c | some r => c.addDep r p b)
  cases hr : currentlyLoading c.stack with
  | none => exact .refl
  | some r => exact .addDep (h r hr)

theorem tracked_changed {L : Nat → Option String → Option String → Prop}
    {U : String → String → Bool → Prop} {c : Ctx} {f : Frame} {body : XM Unit}
    (h : Changed L U { c with stack := c.stack ++ [f] } (body { c with stack := c.stack ++ [f] }).2) :
    Changed L U c (XM.tracked (.ok f) body c).2 := by
  unfold XM.tracked
  simp only
  have hs : (body { c with stack := c.stack ++ [f] }).2.stack = c.stack ++ [f] := h.stack
  split
  · next hnil => rw [hs] at hnil; simp at hnil
  · refine h.popped _ ?_
    rw [hs]; simp

/-- The outcome of a tracked body is the body's. -/
theorem tracked_outcome {c : Ctx} {f : Frame} {body : XM Unit}
    (h : (body { c with stack := c.stack ++ [f] }).2.stack = c.stack ++ [f]) :
    (XM.tracked (.ok f) body c).1 = (body { c with stack := c.stack ++ [f] }).1 := by
  unfold XM.tracked
  simp only
  split
  · next hnil => rw [h] at hnil; simp at hnil
  · rfl

/-- `m` then `k`, whatever `m` does. -/
theorem bind_changed {L : Nat → Option String → Option String → Prop}
    {U : String → String → Bool → Prop} {c : Ctx} {m : XM Unit} {k : Unit → XM Unit}
    (hm : Changed L U c (m c).2) (hk : ∀ c', Changed L U c c' → Changed L U c' (k () c').2) :
    Changed L U c ((m >>= k) c).2 := by
  rw [M.bind_run]
  cases hr : m c with
  | mk r c' =>
    rw [hr] at hm
    cases r with
    | error e => exact hm
    | ok _ => exact hm.trans (hk _ hm)

mutual
theorem exec_changed : ∀ (a : Act) (c : Ctx),
    Changed (LooksAt (around c) a) (Uses (around c) a) c (a.exec c).2
  | .look n, c => by
    refine ⟨rfl, ⟨[(n, _, _)], rfl, ?_⟩, fun _ h => .inl h, fun _ h => .inl h, fun _ h => h, fun _ h => h,
      fun _ h => h, fun h => h⟩
    intro x hx
    rw [List.mem_singleton.1 hx]
    exact .here _ _
  | .raise e, c => .refl
  | .attempt body, c => by
    have h := execs_changed body c
    have h' : Changed (LooksAt (around c) (.attempt body)) (Uses (around c) (.attempt body)) c (Act.execs body c).2 :=
      h.mono (fun n r f ⟨a, ha, hl⟩ => .inAttempt ha hl) (fun d o b ⟨a, ha, hl⟩ => .inAttempt ha hl)
    show Changed _ _ c (M.tryCatch (Act.execs body) (fun _ => pure ()) c).2
    unfold M.tryCatch
    cases hr : Act.execs body c with
    | mk r c' =>
      rw [hr] at h'
      cases r <;> exact h'
  | .run p body, c => by
    refine bind_changed ?_ ?_
    · refine tracked_changed ?_
      refine (execs_changed body { c with stack := c.stack ++ [⟨p, .run⟩] }).mono ?_ ?_
      · intro n r f ⟨a, ha, hl⟩
        rw [around_run] at hl
        exact .inRun ha hl
      · intro d o b ⟨a, ha, hl⟩
        rw [around_run] at hl
        exact .inRun ha hl
    · intro c' hc'
      refine depForRunning_changed (fun d hd => .run ?_)
      rw [hc'.stack] at hd
      exact hd
  | .get p body, c => by
    show Changed _ _ c ((M.get >>= fun c' => _) c).2
    rw [M.bind_ok (M.get_run c)]
    by_cases hp : p ∈ c.loaded
    · simp only [hp, if_true]
      exact .refl
    · simp only [hp, if_false]
      refine bind_changed ?_ ?_
      · exact (execs_changed body c).mono (fun n r f ⟨a, ha, hl⟩ => .inGet ha hl)
          (fun d o b ⟨a, ha, hl⟩ => .inGet ha hl)
      · intro c' hc'
        refine bind_changed ?_ ?_
        · exact ⟨rfl, ⟨[], by simp⟩, fun _ h => .inl h, fun _ h => .inl h, fun _ h => h, fun _ h => h,
            fun _ h => List.mem_append.2 (.inl h), fun h => h⟩
        · intro c'' hc''
          refine depForRunning_changed (fun d hd => .get ?_)
          rw [hc''.stack, hc'.stack] at hd
          exact hd
  | .load (.error e) act body, c => .refl
  | .load (.ok p) act body, c => by
    refine tracked_changed (f := ⟨p, .load act⟩) ?_
    refine (execs_changed body { c with stack := c.stack ++ [⟨p, .load act⟩] }).mono ?_ ?_
    · intro n r f ⟨a, ha, hl⟩
      rw [around_load] at hl
      exact .inLoad ha hl
    · intro d o b ⟨a, ha, hl⟩
      rw [around_load] at hl
      exact .inLoad ha hl
  | .select p, c => depForLoading_changed (fun d hd => .select hd)
  | .realItem p body, c => by
    refine bind_changed ?_ ?_
    · exact depForLoading_changed (fun d hd => .real hd)
    · intro c' hc'
      have h := execs_changed body c'
      have he : around c' = around c := by unfold around; rw [hc'.stack]
      rw [he] at h
      exact h.mono (fun n r f ⟨a, ha, hl⟩ => .inReal ha hl) (fun d o b ⟨a, ha, hl⟩ => .inReal ha hl)
  | .usedView p, c => depForRunning_changed (fun d hd => .view hd)
theorem execs_changed : ∀ (as : List Act) (c : Ctx),
    Changed (fun n r f => ∃ a ∈ as, LooksAt (around c) a n r f)
      (fun d o b => ∃ a ∈ as, Uses (around c) a d o b) c (Act.execs as c).2
  | [], c => .refl
  | a :: as, c => by
    refine bind_changed ?_ ?_
    · exact (exec_changed a c).mono (fun n r f h => ⟨a, by simp, h⟩) (fun d o b h => ⟨a, by simp, h⟩)
    · intro c' hc'
      have h := execs_changed as c'
      have he : around c' = around c := by unfold around; rw [hc'.stack]
      rw [he] at h
      exact h.mono (fun n r f ⟨a, ha, hl⟩ => ⟨a, by simp [ha], hl⟩) (fun d o b ⟨a, ha, hl⟩ => ⟨a, by simp [ha], hl⟩)
end

/-! ## C26 -/

/-- C26. Whatever is run, got, loaded or used, nested to any depth and raising anywhere, the
stack afterwards is the stack before. -/
theorem C26_balanced (a : Act) (c : Ctx) : (a.exec c).2.stack = c.stack :=
  (exec_changed a c).stack

/-- C26. During it, what the context says is currently running is the innermost item being
run, and the file it says is being loaded is the innermost file being executed. -/
theorem C26_innermost (a : Act) (c : Ctx) :
    ∃ new, (a.exec c).2.seen = c.seen ++ new ∧
      ∀ n r f, (n, r, f) ∈ new →
        LooksAt ⟨currentlyRunning c.stack, currentlyLoading c.stack⟩ a n r f := by
  obtain ⟨new, h1, h2⟩ := (exec_changed a c).seen
  exact ⟨new, h1, fun n r f h => h2 _ h⟩

/-- C26. The stack never makes a run fail: the outcome of running an item is the outcome of
what happens in it. -/
theorem C26_outcome (p : String) (body : List Act) (c : Ctx) :
    ((Act.run p body).exec c).1 = (Act.execs body { c with stack := c.stack ++ [⟨p, .run⟩] }).1 := by
  have hs := (execs_changed body { c with stack := c.stack ++ [⟨p, .run⟩] }).stack
  have ho := tracked_outcome (body := Act.execs body) hs
  show ((XM.tracked (.ok ⟨p, .run⟩) (Act.execs body) >>= fun _ => XM.depForRunning p true) c).1 = _
  rw [M.bind_run]
  cases hr : XM.tracked (.ok ⟨p, .run⟩) (Act.execs body) c with
  | mk r c' =>
    rw [hr] at ho
    cases r with
    | error e => exact ho
    | ok u => cases u; exact ho

/-- A function that looks at the context, runs another one that loads a config file in which an
item is got through a view and fails, and looks again. -/
def demoAct : Act :=
  .run "m.a" [.look 0,
    .attempt [.run "m.b" [.look 1, .load (.ok "m.c") .execute [.look 2, .realItem "m.d" [.get "m.d" []],
      .select "m.e", .raise .valueError], .look 3]],
    .look 4, .get "m.d" [], .run "m.f" []]

example : (demoAct.exec Ctx.new).1 = .ok () ∧
    (demoAct.exec Ctx.new).2.stack = [] ∧
    (demoAct.exec Ctx.new).2.seen = [(0, some "m.a", none), (1, some "m.b", none),
      (2, some "m.b", some "m.c"), (4, some "m.a", none)] ∧
    (demoAct.exec Ctx.new).2.deps = [("m.d", "m.c"), ("m.d", "m.b"), ("m.e", "m.c"), ("m.f", "m.a")] := by
  refine ⟨?_, ?_, ?_, ?_⟩ <;> rfl

/-- C26 and `context.reset()` in the middle: code that resets the context while it runs as an
item, or is loaded as a file, makes that run or load end with an `IndexError`, although it
did not fail, and the items around it are no longer on the stack. -/
theorem C26_reset_inside (f : Frame) (before : XM Unit) (c : Ctx)
    (hb : (before { c with stack := c.stack ++ [f] }).1 = .ok ()) :
    (XM.tracked (.ok f) (before >>= fun _ => M.modify Ctx.reset) c).1 = .error .indexError ∧
    (XM.tracked (.ok f) (before >>= fun _ => M.modify Ctx.reset) c).2.stack = [] := by
  have e : (before >>= fun _ => M.modify Ctx.reset) { c with stack := c.stack ++ [f] } =
      (.ok (), (before { c with stack := c.stack ++ [f] }).2.reset) := by
    rw [M.bind_run]
    cases hr : before { c with stack := c.stack ++ [f] } with
    | mk r c' =>
      rw [hr] at hb
      cases hb
      rfl
  unfold XM.tracked
  simp only [e]
  exact ⟨rfl, rfl⟩

/-- This also makes every run around it fail, so the failure cannot be caught within. -/
theorem C26_reset_inside_outer (f g : Frame) (c : Ctx) :
    (XM.tracked (.ok g) (M.tryCatch (XM.tracked (.ok f) (M.modify Ctx.reset)) (fun _ => pure ())) c).1 =
      .error .indexError := rfl

example : (XM.tracked (.ok ⟨"m.a", .run⟩) (M.modify Ctx.reset) Ctx.new).1 = .error .indexError := rfl

/-! ## C27 -/

theorem addDep_changed (c : Ctx) (d o : String) (f : Bool) :
    Changed (fun _ _ _ => False) (fun d' o' b => d' = d ∧ o' = o ∧ b = f) c (c.addDep d o f) :=
  .addDep ⟨rfl, rfl, rfl⟩

/-- The uses in an operation. -/
def OpUses (c : Ctx) : CtxOp → String → String → Bool → Prop
  | .act a, d, o, b => Uses ⟨currentlyRunning c.stack, currentlyLoading c.stack⟩ a d o b
  | .add d o f, d', o', b => d' = d ∧ o' = o ∧ b = f
  | .reset, _, _, _ => False

theorem step_changed (c : Ctx) (op : CtxOp) (h : op ≠ .reset) :
    ∃ L, Changed L (OpUses c op) c (c.step op) := by
  cases op with
  | act a => exact ⟨_, exec_changed a c⟩
  | add d o f => exact ⟨_, addDep_changed c d o f⟩
  | reset => exact absurd rfl h

theorem step_sound (c : Ctx) (op : CtxOp) (h : SoundRecords c) : SoundRecords (c.step op) := by
  by_cases hr : op = .reset
  · subst hr
    exact ⟨fun x hx => (List.not_mem_nil hx).elim, fun x hx => (List.not_mem_nil hx).elim⟩
  · obtain ⟨L, hc⟩ := step_changed c op hr
    refine ⟨fun x hx => ?_, hc.sub h.forcedToo⟩
    rcases hc.deps x hx with hx | ⟨_, hne⟩
    · exact h.noSelf x hx
    · exact fun he => hne he.symm

/-- C27. After any history no item depends on itself and every forced dependency is also an
ordinary one. -/
theorem C27_sound (ops : List CtxOp) :
    (∀ x ∈ (ops.foldl Ctx.step Ctx.new).deps, x.1 ≠ x.2) ∧
    (∀ x ∈ (ops.foldl Ctx.step Ctx.new).forced, x ∈ (ops.foldl Ctx.step Ctx.new).deps) := by
  have : ∀ (ops : List CtxOp) (c : Ctx), SoundRecords c → SoundRecords (ops.foldl Ctx.step c) := by
    intro ops
    induction ops with
    | nil => exact fun c h => h
    | cons op ops ih => exact fun c h => ih _ (step_sound c op h)
  have h := this ops Ctx.new ⟨fun x hx => (List.not_mem_nil hx).elim, fun x hx => (List.not_mem_nil hx).elim⟩
  exact ⟨h.noSelf, h.forcedToo⟩

/-- C27. Records are never lost in a history without `context.reset()`, and that forgets
all. -/
theorem C27_kept (ops : List CtxOp) (h : CtxOp.reset ∉ ops) (c : Ctx) :
    (∀ x ∈ c.deps, x ∈ (ops.foldl Ctx.step c).deps) ∧
    (∀ x ∈ c.forced, x ∈ (ops.foldl Ctx.step c).forced) ∧
    (c.step .reset).deps = [] ∧ (c.step .reset).forced = [] := by
  refine ⟨?_, ?_, rfl, rfl⟩
  all_goals
    induction ops generalizing c with
    | nil => exact fun x h => h
    | cons op ops ih =>
      simp only [List.mem_cons, not_or] at h
      obtain ⟨L, hc⟩ := step_changed c op (fun he => h.1 he.symm)
      first
        | exact fun x hx => ih h.2 _ x (hc.keepDeps x hx)
        | exact fun x hx => ih h.2 _ x (hc.keepForced x hx)

/-- C27. Nothing else is recorded: a dependency that one operation adds is a use of the one item
by the other in it, and a forced one is a use of the item itself. -/
theorem C27_only_uses (c : Ctx) (op : CtxOp) :
    (∀ d o, (o, d) ∈ (c.step op).deps → (o, d) ∈ c.deps ∨ ∃ b, OpUses c op d o b) ∧
    (∀ d o, (o, d) ∈ (c.step op).forced → (o, d) ∈ c.forced ∨ OpUses c op d o true) := by
  by_cases hr : op = .reset
  · subst hr
    exact ⟨fun d o h => (List.not_mem_nil h).elim, fun d o h => (List.not_mem_nil h).elim⟩
  · obtain ⟨L, hc⟩ := step_changed c op hr
    exact ⟨fun d o h => (hc.deps _ h).imp id (fun h => h.1), fun d o h => hc.forced _ h⟩

example : ([CtxOp.act demoAct, .add "m.x" "m.x" true, .add "m.x" "m.y" true].foldl Ctx.step Ctx.new).forced =
    [("m.d", "m.c"), ("m.d", "m.b"), ("m.f", "m.a"), ("m.y", "m.x")] := rfl

/-- C27. `context.reset()` makes the context a fresh one: nothing runs, nothing is being loaded and
nothing is recorded, while what was loaded stays loaded. -/
theorem C27_reset (c : Ctx) :
    (c.step .reset).stack = [] ∧ (c.step .reset).deps = [] ∧ (c.step .reset).forced = [] ∧
    currentlyRunning (c.step .reset).stack = none ∧ currentlyLoading (c.step .reset).stack = none ∧
    (c.step .reset).loaded = c.loaded := ⟨rfl, rfl, rfl, rfl, rfl, rfl⟩

/-! ## C56 -/

theorem addDep_mem (c : Ctx) (d o : String) (f : Bool) (h : d ≠ o) :
    (o, d) ∈ (c.addDep d o f).deps ∧ (f = true → (o, d) ∈ (c.addDep d o f).forced) := by
  unfold Ctx.addDep
  rw [if_neg h]
  cases f
  · exact ⟨mem_addPair.2 (.inr rfl), fun h => by simp at h⟩
  · exact ⟨mem_addPair.2 (.inr rfl), fun _ => mem_addPair.2 (.inr rfl)⟩

theorem depForRunning_mem {c : Ctx} {r p : String} (hr : currentlyRunning c.stack = some r) (h : r ≠ p) :
    (p, r) ∈ (XM.depForRunning p true c).2.deps ∧ (p, r) ∈ (XM.depForRunning p true c).2.forced := by
  have : (XM.depForRunning p true c).2 = c.addDep r p true := by
    show (match currentlyRunning c.stack with | none => c | some r => c.addDep r p true) = _
    rw [hr]
  rw [this]
  exact ⟨(addDep_mem c r p true h).1, (addDep_mem c r p true h).2 rfl⟩

/-- C56 (partial). While an item is running: running another item to its end, using an attribute
of a view of it or calling the view, and getting it for the first time make the running item
depend on it, forced.  Full property: getting it at any time does. -/
theorem C56_used_items_partial (c : Ctx) (r p : String) (hr : currentlyRunning c.stack = some r) (hne : r ≠ p)
    (a : Act) (hend : (a.exec c).1 = .ok ())
    (ha : (∃ body, a = .run p body) ∨ a = .usedView p ∨ (p ∉ c.loaded ∧ ∃ body, a = .get p body)) :
    (p, r) ∈ (a.exec c).2.deps ∧ (p, r) ∈ (a.exec c).2.forced := by
  rcases ha with ⟨body, rfl⟩ | rfl | ⟨hp, body, rfl⟩
  · revert hend
    show ((XM.tracked (.ok ⟨p, .run⟩) (Act.execs body) >>= fun _ => XM.depForRunning p true) c).1 = _ →
      (p, r) ∈ ((XM.tracked (.ok ⟨p, .run⟩) (Act.execs body) >>= fun _ => XM.depForRunning p true) c).2.deps ∧
      (p, r) ∈ ((XM.tracked (.ok ⟨p, .run⟩) (Act.execs body) >>= fun _ => XM.depForRunning p true) c).2.forced
    have ht := tracked_changed (execs_changed body { c with stack := c.stack ++ [⟨p, .run⟩] })
    rw [M.bind_run]
    cases hr' : XM.tracked (.ok ⟨p, .run⟩) (Act.execs body) c with
    | mk q c' =>
      rw [hr'] at ht
      cases q with
      | error e => intro h; cases h
      | ok u => exact fun _ => depForRunning_mem (by rw [ht.stack]; exact hr) hne
  · exact depForRunning_mem hr hne
  · revert hend
    show ((M.get >>= fun c' => _) c).1 = _ → (p, r) ∈ ((M.get >>= fun c' => _) c).2.deps ∧
      (p, r) ∈ ((M.get >>= fun c' => _) c).2.forced
    rw [M.bind_ok (M.get_run c)]
    simp only [hp, if_false]
    have ht := execs_changed body c
    rw [M.bind_run]
    cases hr' : Act.execs body c with
    | mk q c' =>
      rw [hr'] at ht
      cases q with
      | error e => intro h; cases h
      | ok u =>
        intro _
        exact depForRunning_mem (c := { c' with loaded := c'.loaded ++ [p] }) (by rw [← hr]; exact congrArg _ ht.stack) hne

example : currentlyRunning (Ctx.mk [⟨"m.a", .run⟩] [] [] [] []).stack = some "m.a" ∧ "m.a" ≠ "m.b" ∧
    ((Act.get "m.b" [.look 0]).exec (Ctx.mk [⟨"m.a", .run⟩] [] [] [] [])).1 = .ok () ∧
    "m.b" ∉ (Ctx.mk [⟨"m.a", .run⟩] [] [] [] []).loaded := by
  refine ⟨rfl, by decide +kernel, rfl, by simp⟩

/-- C56 fails for items that were got before: nothing is recorded for the running item, in any
context. -/
theorem C56_get_again_violated (c : Ctx) (p : String) (body : List Act) (hp : p ∈ c.loaded) :
    (Act.get p body).exec c = (.ok (), c) := by
  show (M.get >>= fun c' => _) c = _
  rw [M.bind_ok (M.get_run c)]
  simp only [hp, if_true]
  rfl

/-- A history: the item `m.b` is got, then `m.a` is run and gets it: it is not recorded. -/
example : ([CtxOp.act (.get "m.b" []), .act (.run "m.a" [.get "m.b" []])].foldl Ctx.step Ctx.new).deps = [] := rfl

/-- C56 and exceptions: an item whose run fails is not recorded, also if the failure is caught. -/
theorem C56_failed_run_violated :
    ([CtxOp.act (.run "m.a" [.attempt [.run "m.b" [.raise .valueError]]])].foldl Ctx.step Ctx.new).deps = [] := rfl

/-! ## C30 -/

section Views
variable {V : Type}

/-- The value an update with `d` and `kw` gives to the key `k`: keyword arguments win. -/
def UpdateGives (d : Option (Dict String V)) (kw : Dict String V) (k : String) (v : V) : Prop :=
  kw.get? k = some v ∨ (kw.get? k = none ∧ ∃ e, d = some e ∧ e.get? k = some v)

theorem foldl_views_keeps (viewed : V → Option String) (d : String) (es : List (String × V)) (c : Ctx) :
    ∀ x ∈ c.deps, x ∈ (es.foldl (fun c e => match viewed e.2 with
      | none => c
      | some v => c.addDep d v false) c).deps := by
  induction es generalizing c with
  | nil => exact fun x h => h
  | cons e es ih =>
    intro x hx
    refine ih _ x ?_
    show x ∈ (match viewed e.2 with | none => c | some v => c.addDep d v false).deps
    split
    · exact hx
    · exact (addDep_changed c d _ false).keepDeps x hx

theorem foldl_views_mem (viewed : V → Option String) (d : String) (es : List (String × V)) (c : Ctx)
    {e : String × V} (he : e ∈ es) {o : String} (ho : viewed e.2 = some o) (hne : d ≠ o) :
    (o, d) ∈ (es.foldl (fun c e => match viewed e.2 with
      | none => c
      | some v => c.addDep d v false) c).deps := by
  induction es generalizing c with
  | nil => cases he
  | cons e' es ih =>
    rcases List.mem_cons.1 he with rfl | he
    · refine foldl_views_keeps viewed d es _ _ ?_
      show (o, d) ∈ (match viewed e.2 with | none => c | some v => c.addDep d v false).deps
      rw [ho]
      exact (addDep_mem c d o false hne).1
    · exact ih _ he

variable [BEq V]

/-- C30 (partial). An update of an item that gives a key a view of another item, by the dictionary
or by a keyword argument, records that the item depends on the viewed one, also when applying the
update fails.  Full property: also if the dictionary and the keyword arguments give the same key
values that view different items or none. -/
theorem C30_update_partial (viewed : V → Option String) (name : String) (d : Option (Dict String V))
    (p : List String) (persist : Bool) (kw : Dict String V) (s : PS V)
    (hp : join '.' p ≠ "") (hkw : Conf.clash updateParams kw = false)
    (hsame : ∀ k v w e, kw.get? k = some v → d = some e → e.get? k = some w → viewed v = viewed w)
    (k : String) (v : V) (o : String) (hv : UpdateGives d kw k v) (ho : viewed v = some o)
    (hne : o ≠ join '.' (name :: p)) :
    (o, join '.' (name :: p)) ∈ (PM.update viewed name d (some p) persist kw s).2.ctx.deps ∧
    ∀ conf : Conf V, (conf.update d persist kw).values.get? k = some v := by
  refine ⟨?_, fun conf => ?_⟩
  · unfold PM.update
    rw [hkw, if_neg (by simp)]
    show (o, _) ∈ (if join '.' p = "" then s.ctx else
      s.ctx.recordViews viewed (join '.' (name :: p)) d kw).deps
    rw [if_neg hp]
    unfold Ctx.recordViews
    cases d with
    | none =>
      rcases hv with hv | ⟨_, e, he, _⟩
      · exact foldl_views_mem viewed _ _ _ ((Dict.mem_items_iff _ k v).2 hv) ho (fun h => hne h.symm)
      · cases he
    | some e =>
      have hg := Dict.get?_update kw e k
      cases hek : e.get? k with
      | none =>
        rw [hek] at hg
        rcases hv with hv | ⟨_, e', he', hv⟩
        · rw [hv] at hg
          exact foldl_views_mem viewed _ _ _ ((Dict.mem_items_iff _ k v).2 hg) ho (fun h => hne h.symm)
        · cases he'; rw [hek] at hv; cases hv
      | some w =>
        rw [hek] at hg
        have hw : viewed w = some o := by
          rcases hv with hv | ⟨_, e', he', hv⟩
          · rw [← hsame k v w e hv rfl hek]; exact ho
          · cases he'; rw [hek] at hv; cases hv; exact ho
        exact foldl_views_mem viewed _ _ _ ((Dict.mem_items_iff _ k w).2 hg) hw (fun h => hne h.symm)
  · have h6 := C06_update_changes_named_keys conf d persist kw
    rcases hv with hv | ⟨hn, hv⟩
    · exact h6.1 k v hv
    · exact h6.2.1 k v hn hv

/-- C30 (partial). The same for updates changed by plugins: what a plugin adds is recorded, even
where it overrides something.  (A plugin that adds a key with the name of a parameter of the update makes it fail.) -/
theorem C30_plugins_partial (viewed : V → Option String) (name : String)
    (preUpdate : Option (Dict String V) → Option (List String) → Dict String V → List (Dict String V))
    (d : Option (Dict String V)) (p : List String) (persist : Bool) (kw : Dict String V) (s : PS V)
    (hp : join '.' p ≠ "")
    (hkw : Conf.clash updateParams (kw.update ((preUpdate d (some p) kw).foldl Dict.update Dict.empty)) = false)
    (k : String) (v : V) (o : String)
    (hv : ((preUpdate d (some p) kw).foldl Dict.update Dict.empty).get? k = some v)
    (ho : viewed v = some o) (hne : o ≠ join '.' (name :: p)) :
    (o, join '.' (name :: p)) ∈ (PM.updateHooked viewed name preUpdate d (some p) persist kw s).2.ctx.deps := by
  unfold PM.updateHooked PM.update
  rw [hkw, if_neg (by simp)]
  show (o, _) ∈ (if join '.' p = "" then s.ctx else
      s.ctx.recordViews viewed (join '.' (name :: p)) _ _).deps
  rw [if_neg hp]
  unfold Ctx.recordViews
  refine foldl_views_mem viewed _ _ _ ((Dict.mem_items_iff _ k v).2 ?_) ho (fun h => hne h.symm)
  cases d with
  | none => simp [Dict.get?_update, hv]
  | some e =>
    show ((kw.update _).update _).get? k = some v
    simp [Dict.get?_update, hv]

/-- C30 fails when a plugin adds a key with the name of a parameter of the update: nothing is updated or recorded, whatever else
was given. -/
theorem C30_parameter_violated (viewed : V → Option String) (name : String)
    (preUpdate : Option (Dict String V) → Option (List String) → Dict String V → List (Dict String V))
    (d : Option (Dict String V)) (p : Option (List String)) (persist : Bool) (kw : Dict String V) (s : PS V)
    (k : String) (hk : k ∈ ["self", "d_", "section_path_str", "pyfileconf_persist"]) (v : V)
    (hv : ((preUpdate d p kw).foldl Dict.update Dict.empty).get? k = some v) :
    PM.updateHooked viewed name preUpdate d p persist kw s = (.error .typeError, s) := by
  have hc : Conf.clash updateParams (kw.update ((preUpdate d p kw).foldl Dict.update Dict.empty)) = true := by
    unfold Conf.clash
    rw [List.any_eq_true]
    refine ⟨k, Dict.mem_keys_of_get? (v := v) ?_, decide_eq_true hk⟩
    simp [Dict.get?_update, hv]
  unfold PM.updateHooked PM.update
  simp only
  rw [hc, if_pos rfl]

end Views

/-- Values for the examples: views of items, or plain values. -/
abbrev DemoVal := String ⊕ Nat

/-- The item a value views. -/
def demoViewed : DemoVal → Option String
  | .inl o => some o
  | .inr _ => none

/-- C30 fails when the dictionary and the keyword arguments both give the key: the view in the
keyword argument is what the config gets, but nothing is recorded, in any state. -/
theorem C30_overlap_violated (s : PS DemoVal) (persist : Bool) :
    let d : Option (Dict String DemoVal) := some (Dict.ofList [("a", .inr 1)])
    let kw : Dict String DemoVal := Dict.ofList [("a", .inl "m.other")]
    UpdateGives d kw "a" (.inl "m.other") ∧
    (∀ conf : Conf DemoVal, (conf.update d persist kw).values.get? "a" = some (.inl "m.other")) ∧
    (PM.update demoViewed "m" d (some ["s", "item"]) persist kw s).2.ctx.deps = s.ctx.deps := by
  refine ⟨.inl (by decide +kernel), fun conf => ?_, rfl⟩
  exact (C06_update_changes_named_keys conf _ persist _).1 "a" _ (by decide +kernel)

example : join '.' ["s", "item"] ≠ "" ∧
    UpdateGives (some (Dict.ofList [("a", .inl "m.other")])) (Dict.ofList [("b", .inr 1)]) "a" (.inl "m.other" : DemoVal) ∧
    demoViewed (.inl "m.other") = some "m.other" ∧ "m.other" ≠ join '.' ["m", "s", "item"] ∧
    Conf.clash updateParams (Dict.ofList [("b", (.inr 1 : DemoVal))]) = false := by
  refine ⟨by decide +kernel, .inr ⟨by decide +kernel, _, rfl, by decide +kernel⟩, rfl, by decide +kernel, by decide +kernel⟩

/-- A plugin as in `C30_parameter_violated`. -/
example : ([Dict.ofList [("pyfileconf_persist", (.inr 0 : DemoVal))]].foldl Dict.update Dict.empty).get? "pyfileconf_persist" =
    some (.inr 0) := by decide +kernel

end Verif.Props
