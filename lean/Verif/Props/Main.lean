import Verif.Model.Main
import Verif.Props.Section

/-
Property theorems about running through the manager and about attribute access: C21, C22, C25,
C54.
-/

namespace Verif.Props
open Verif.Py Verif.Model

variable {V : Type}

/-! ## Specification -/

/-- A section path as a list of names. -/
structure Sections (p : List String) : Prop where
  ne : p ≠ []
  dotFree : ∀ x ∈ p, hasChar '.' x = false

/-- What a user passes names the item or section at `p`: as a string, or as a view of a selector,
which has the name of the manager in front. -/
inductive Names : PathLike → List String → Prop where
  | str (p : List String) : Sections p → Names (.str (join '.' p)) p
  | view (manager : String) (p : List String) : Sections p → hasChar '.' manager = false →
    Names (.view (join '.' (manager :: p))) p

/-- Entry by entry. -/
inductive NamesAll : List PathLike → List (List String) → Prop where
  | nil : NamesAll [] []
  | cons {x : PathLike} {p : List String} {xs : List PathLike} {ps : List (List String)} :
    Names x p → NamesAll xs ps → NamesAll (x :: xs) (p :: ps)

/-- Running the paths one after the other gave the results in order. -/
inductive Ran : RS V → List (List String) → List (RM.RunRes V) → RS V → Prop where
  | nil (s : RS V) : Ran s [] [] s
  | cons {s s1 s2 : RS V} {p : List String} {ps : List (List String)} {r : RM.RunRes V} {rs : List (RM.RunRes V)} :
    RM.run1 p s = (.ok r, s1) → Ran s1 ps rs s2 → Ran s (p :: ps) (r :: rs) s2

theorem Ran.length {s t : RS V} {ps : List (List String)} {rs : List (RM.RunRes V)} (h : Ran s ps rs t) :
    rs.length = ps.length := by
  induction h with
  | nil s => rfl
  | cons _ _ ih => simp [ih]

/-- The settings of a manager by default. -/
def plainSettings : RunSettings := ⟨false, false⟩

/-- The settings with `force_continue`. -/
def forcing : RunSettings := ⟨false, true⟩

/-- The settings with `auto_pdb`. -/
def debugging : RunSettings := ⟨true, false⟩

/-! ### Lemmas -/

theorem convertOne_names {x : PathLike} {p : List String} (h : Names x p) : convertOne x = .ok (join '.' p) := by
  cases h with
  | str p hp => rfl
  | view m p hp hm =>
    show Except.ok _ = _
    unfold SectionPath.tail SectionPath.sections
    rw [split_join '.' (by simp) (by
      intro x hx
      rcases List.mem_cons.1 hx with h | h
      · subst h; exact hm
      · exact hp.dotFree x h)]
    rfl

theorem convertAll_names {xs : List PathLike} {ps : List (List String)} (h : NamesAll xs ps) :
    convertAll xs = .ok (ps.map (join '.')) := by
  induction h with
  | nil => rfl
  | cons h1 _ ih =>
    rw [convertAll, convertOne_names h1, ih]
    rfl

theorem NamesAll.length {xs : List PathLike} {ps : List (List String)} (h : NamesAll xs ps) : ps.length = xs.length := by
  induction h with
  | nil => rfl
  | cons _ _ ih => simp [ih]

theorem Names.sections {x : PathLike} {p : List String} (h : Names x p) : Sections p := by
  cases h with
  | str _ h => exact h
  | view _ _ h _ => exact h

theorem NamesAll.sections {xs : List PathLike} {ps : List (List String)} (h : NamesAll xs ps) :
    ∀ p ∈ ps, Sections p := by
  induction h with
  | nil => intro p hp; cases hp
  | cons h1 _ ih =>
    intro p hp
    rcases List.mem_cons.1 hp with h | h
    · subst h; exact h1.sections
    · exact ih p h

theorem runEntry_path {p : List String} (h : Sections p) :
    MM.runEntry (V := V) (.str (join '.' p)) = RM.run1 p := by
  show RM.run1 (split '.' (join '.' p)) = _
  rw [split_join '.' h.ne h.dotFree]

theorem runnerRun_path {p : List String} (h : Sections p) :
    MM.runnerRun (V := V) noPost (.str (join '.' p)) = RM.run1 p := by
  show (MM.runEntry (V := V) (.str (join '.' p)) >>= fun r => pure r) = _
  rw [runEntry_path h, bind_pure]

/-- The values the runner gets for paths. -/
def vals (ps : List (List String)) : List RunVal := ps.map (fun p => .str (join '.' p))

theorem runEntries_ok {ps : List (List String)} (hp : ∀ p ∈ ps, Sections p) :
    ∀ (s t : RS V) (rs : List (RM.RunRes V)), MM.runEntries (vals ps) s = (.ok rs, t) ↔ Ran s ps rs t := by
  induction ps with
  | nil =>
    intro s t rs
    constructor
    · intro h; cases h; exact .nil s
    · intro h; cases h; rfl
  | cons p ps ih =>
    have ih := ih (fun q hq => hp q (List.mem_cons_of_mem _ hq))
    intro s t rs
    show (MM.runEntry (.str (join '.' p)) >>= fun r => MM.runEntries (vals ps) >>= fun rs => pure (r :: rs)) s = _ ↔ _
    rw [runEntry_path (hp p List.mem_cons_self), M.bind_run]
    constructor
    · intro h
      cases h1 : RM.run1 p s with
      | mk y s1 =>
        rw [h1] at h
        cases y with
        | error e => cases h
        | ok r =>
          simp only [M.bind_run] at h
          cases h2 : MM.runEntries (vals ps) s1 with
          | mk z s2 =>
            rw [h2] at h
            cases z with
            | error e => cases h
            | ok rs' => cases h; exact .cons h1 ((ih _ _ _).1 h2)
    · intro h
      cases h with
      | cons h1 h2 =>
        rw [h1]
        simp only [M.bind_run]
        rw [(ih _ _ _).2 h2]
        rfl

theorem runEntries_error {ps : List (List String)} (hp : ∀ p ∈ ps, Sections p) :
    ∀ (s t : RS V) (e : PyErr), MM.runEntries (vals ps) s = (.error e, t) ↔
      ∃ ps1 p ps2 rs s1, ps = ps1 ++ p :: ps2 ∧ Ran s ps1 rs s1 ∧ RM.run1 p s1 = (.error e, t) := by
  induction ps with
  | nil =>
    intro s t e
    constructor
    · intro h; cases h
    · rintro ⟨ps1, p, ps2, rs, s1, h, _⟩
      simp at h
  | cons p ps ih =>
    have ih := ih (fun q hq => hp q (List.mem_cons_of_mem _ hq))
    intro s t e
    show (MM.runEntry (.str (join '.' p)) >>= fun r => MM.runEntries (vals ps) >>= fun rs => pure (r :: rs)) s = _ ↔ _
    rw [runEntry_path (hp p List.mem_cons_self), M.bind_run]
    constructor
    · intro h
      cases h1 : RM.run1 p s with
      | mk y s1 =>
        rw [h1] at h
        cases y with
        | error e => cases h; exact ⟨[], p, ps, [], s, rfl, .nil s, h1⟩
        | ok r =>
          simp only [M.bind_run] at h
          cases h2 : MM.runEntries (vals ps) s1 with
          | mk z s2 =>
            rw [h2] at h
            cases z with
            | ok rs' => cases h
            | error e =>
              cases h
              obtain ⟨ps1, q, ps2, rs, s3, he, hr, hq⟩ := (ih _ _ _).1 h2
              exact ⟨p :: ps1, q, ps2, r :: rs, s3, by rw [he]; rfl, .cons h1 hr, hq⟩
    · rintro ⟨ps1, q, ps2, rs, s1, he, hr, hq⟩
      cases hr with
      | nil =>
        cases he
        rw [hq]
      | cons h1 h2 =>
        rw [List.cons_append] at he
        injection he with he1 he2
        subst he1
        rw [h1]
        simp only [M.bind_run]
        rw [(ih _ _ e).2 ⟨_, q, ps2, _, s1, he2, h2, hq⟩]

theorem run_list [BEq V] {xs : List PathLike} {ps : List (List String)} (h : NamesAll xs ps) (h1 : xs.length ≠ 1)
    (st : RunSettings) (s : MS V) :
    MM.run st .none (.list xs) s = MM.runWith st noPost (.list (vals ps)) s := by
  unfold MM.run
  have hc : convertArg (.list xs) = .ok (.list (vals ps)) := by
    simp only [convertArg, convertAll_names h]
    show Except.ok (RunVal.list (List.map RunVal.str (List.map (join '.') ps))) = _
    rw [List.map_map]
    rfl
  rw [hc, M.bind_ok (M.liftE_run _ s)]
  show MM.runWith st noPost (combineExtract (.list (vals ps)) []) s = _
  have : combineExtract (.list (vals ps)) [] = .list (vals ps) := by
    unfold combineExtract combineItems toList
    rw [List.append_nil]
    have hl : (vals ps).length ≠ 1 := by unfold vals; rw [List.length_map, h.length]; exact h1
    split
    · rename_i x hx; rw [show vals _ = [x] from hx] at hl; exact absurd rfl hl
    · rfl
  rw [this]

theorem run_single {x : PathLike} {p : List String} (h : Names x p) (st : RunSettings) (s : MS V) :
    MM.run st .none (.single x) s = MM.runWith st noPost (.str (join '.' p)) s := by
  unfold MM.run
  have hc : convertArg (.single x) = .ok (.str (join '.' p)) := by
    simp only [convertArg, convertOne_names h]
    rfl
  rw [hc, M.bind_ok (M.liftE_run _ s)]
  rfl

/-! ## C21 -/

/-- C21 for lists that do not have exactly one entry (see `C21_one_entry_violated` for those):
running a list returns a list with the result of the i-th path at position i. -/
theorem C21_list_partial [BEq V] (xs : List PathLike) (ps : List (List String)) (h : NamesAll xs ps)
    (h1 : xs.length ≠ 1) (s s' : MS V) (out : Option (RM.RunRes V)) :
    MM.run plainSettings .none (.list xs) s = (.ok out, s') ↔
      ∃ rs, out = some (.many rs) ∧ rs.length = xs.length ∧ Ran s.rs ps rs s'.rs ∧ s'.log = s.log := by
  rw [run_list h h1]
  show (MM.liftR (MM.runnerRun noPost (.list (vals ps))) >>= fun r => pure (some r)) s = _ ↔ _
  rw [M.bind_run]
  unfold MM.liftR MM.runnerRun
  simp only [M.bind_run]
  constructor
  · intro hh
    cases h2 : MM.runEntries (vals ps) s.rs with
    | mk y t =>
      rw [h2] at hh
      cases y with
      | error e => cases hh
      | ok rs =>
        cases hh
        have hr := (runEntries_ok h.sections _ _ _).1 h2
        refine ⟨rs ++ [], rfl, ?_, ?_, rfl⟩
        · rw [List.append_nil, hr.length, h.length]
        · rw [List.append_nil]; exact hr
  · rintro ⟨rs, rfl, _, hr, hl⟩
    rw [(runEntries_ok h.sections _ _ _).2 hr]
    simp only [M.pure_run]
    have : s' = ⟨s'.rs, s.log⟩ := by cases s'; simp only at hl; rw [hl]
    rw [this]
    show (_, _) = (_, _)
    rw [show rs ++ noPost (RM.RunRes.many rs) = rs from List.append_nil rs]

/-- C21, failures: if running a list raises, some path raised and the ones before it ran. -/
theorem C21_list_raises [BEq V] (xs : List PathLike) (ps : List (List String)) (h : NamesAll xs ps)
    (h1 : xs.length ≠ 1) (s s' : MS V) (e : PyErr) :
    MM.run plainSettings .none (.list xs) s = (.error e, s') ↔
      s'.log = s.log ∧ ∃ ps1 p ps2 rs s1, ps = ps1 ++ p :: ps2 ∧ Ran s.rs ps1 rs s1 ∧
        RM.run1 p s1 = (.error e, s'.rs) := by
  rw [run_list h h1]
  show (MM.liftR (MM.runnerRun noPost (.list (vals ps))) >>= fun r => pure (some r)) s = _ ↔ _
  rw [M.bind_run]
  unfold MM.liftR MM.runnerRun
  simp only [M.bind_run]
  rw [← runEntries_error h.sections]
  cases h2 : MM.runEntries (vals ps) s.rs with
  | mk y t =>
    cases y with
    | ok rs =>
      constructor
      · intro hh; cases hh
      · rintro ⟨_, hh⟩; cases hh
    | error e' =>
      constructor
      · intro hh; cases hh; exact ⟨rfl, rfl⟩
      · rintro ⟨hl, hh⟩
        cases hh
        cases s'
        simp only at hl
        subst hl
        rfl

/-- A single path returns its result. -/
theorem C21_single [BEq V] (x : PathLike) (p : List String) (h : Names x p) (s s' : MS V)
    (out : Option (RM.RunRes V)) :
    MM.run plainSettings .none (.single x) s = (.ok out, s') ↔
      ∃ r, out = some r ∧ RM.run1 p s.rs = (.ok r, s'.rs) ∧ s'.log = s.log := by
  rw [run_single h]
  show (MM.liftR (MM.runnerRun noPost (.str (join '.' p))) >>= fun r => pure (some r)) s = _ ↔ _
  rw [M.bind_run]
  unfold MM.liftR
  rw [runnerRun_path h.sections]
  cases h2 : RM.run1 p s.rs with
  | mk y t =>
    cases y with
    | error e =>
      constructor
      · intro hh; cases hh
      · rintro ⟨r, _, hh, _⟩; cases hh
    | ok r =>
      constructor
      · intro hh; cases hh; exact ⟨r, rfl, rfl, rfl⟩
      · rintro ⟨r', rfl, hh, hl⟩
        cases hh
        cases s'
        simp only at hl
        subst hl
        rfl

/-- C21 fails for lists with one entry: whatever the path, the list is treated like the path
itself, so the result is not in a list. -/
theorem C21_one_entry_violated [BEq V] (x : PathLike) (p : List String) (h : Names x p) (s : MS V) (st : RunSettings) :
    MM.run st .none (.list [x]) s = MM.run st .none (.single x) s := by
  unfold MM.run
  have h1 : convertArg (.list [x]) = .ok (.list [.str (join '.' p)]) := by
    simp only [convertArg, convertAll, convertOne_names h]
    rfl
  have h2 : convertArg (.single x) = .ok (.str (join '.' p)) := by
    simp only [convertArg, convertOne_names h]
    rfl
  rw [M.bind_run, M.bind_run, h1, h2]
  rfl

/-- The demo project, with an empty log. -/
def demoManager : MS Nat := ⟨demoRunner demoFunc, []⟩

/-- The results in a result. -/
def outcome (x : Except PyErr (Option (RM.RunRes Nat)) × MS Nat) : Option (Bool × List Nat) :=
  match x.1 with
  | .ok (some (.many rs)) => some (true, flats rs)
  | .ok (some (.one v)) => some (false, [v])
  | _ => none

/-- Two entries (one of them given as a view) meet the hypotheses of `C21_list_partial`. -/
example : NamesAll [.str "main.data.func", .view "demo.main.data.noargs"]
      [["main", "data", "func"], ["main", "data", "noargs"]] ∧
    outcome (MM.run plainSettings .none (.list [.str "main.data.func", .view "demo.main.data.noargs"]) demoManager) =
      some (true, [230, 0]) :=
  ⟨.cons (.str ["main", "data", "func"] ⟨by decide, by decide⟩)
    (.cons (.view "demo" ["main", "data", "noargs"] ⟨by decide, by decide⟩ (by decide)) .nil), by decide +kernel⟩

/-- The result of the list with one entry is not a list. -/
example : outcome (MM.run plainSettings .none (.list [.str "main.data.func"]) demoManager) = some (false, [230]) := by
  decide +kernel

/-! ## C22 -/

/-- Every path was attempted once, in order, each in the state the one before left; `outs` says
how each of them ended.  A user interrupt is not among the outcomes. -/
inductive Attempted : RS V → List (List String) → List (Except PyErr (RM.RunRes V)) → RS V → Prop where
  | nil (s : RS V) : Attempted s [] [] s
  | cons {s s1 s2 : RS V} {p : List String} {ps : List (List String)} {out : Except PyErr (RM.RunRes V)}
    {outs : List (Except PyErr (RM.RunRes V))} :
    RM.run1 p s = (out, s1) → out ≠ .error .interrupt → Attempted s1 ps outs s2 →
    Attempted s (p :: ps) (out :: outs) s2

/-- The results of the successful attempts, in order. -/
def successes : List (Except PyErr (RM.RunRes V)) → List (RM.RunRes V)
  | [] => []
  | .ok r :: outs => r :: successes outs
  | .error _ :: outs => successes outs

/-- The failed attempts with their paths, in order. -/
def failures : List (List String) → List (Except PyErr (RM.RunRes V)) → List (List String × PyErr)
  | p :: ps, .error e :: outs => (p, e) :: failures ps outs
  | _ :: ps, .ok _ :: outs => failures ps outs
  | _, _ => []

/-- A failure as it is reported. -/
def reported (f : List String × PyErr) : RunVal × PyErr := (.str (join '.' f.1), f.2)

/-- What is logged: every failure when it happens, and the summary at the end. -/
def loggedFailures (fs : List (List String × PyErr)) : List LogEntry :=
  fs.map (fun f => .failed (.str (join '.' f.1)) f.2)

/-- The last thing that is logged. -/
def finalReport (fs : List (List String × PyErr)) : LogEntry :=
  if fs = [] then .allWell else .summary (fs.map reported)

/-- Unless the user interrupts, all paths are attempted. -/
theorem attempted_or_interrupted (ps : List (List String)) : ∀ s : RS V,
    (∃ outs t, Attempted s ps outs t) ∨
    ∃ ps1 p ps2 outs s1 t, ps = ps1 ++ p :: ps2 ∧ Attempted s ps1 outs s1 ∧
      RM.run1 p s1 = (.error .interrupt, t) := by
  induction ps with
  | nil => intro s; exact .inl ⟨[], s, .nil s⟩
  | cons p ps ih =>
    intro s
    cases h1 : RM.run1 p s with
    | mk out s1 =>
      by_cases hi : out = .error .interrupt
      · subst hi
        exact .inr ⟨[], p, ps, [], s, s1, rfl, .nil s, h1⟩
      · rcases ih s1 with ⟨outs, t, h2⟩ | ⟨ps1, q, ps2, outs, s2, t, he, ha, hq⟩
        · exact .inl ⟨out :: outs, t, .cons h1 hi h2⟩
        · exact .inr ⟨p :: ps1, q, ps2, out :: outs, s2, t, by rw [he]; rfl, .cons h1 hi ha, hq⟩

theorem tryRun_path {p : List String} (hp : Sections p) (s : MS V) (b : Bool) :
    MM.tryRun (MM.liftR (MM.runnerRun noPost (.str (join '.' p)))) b s =
      match RM.run1 p s.rs with
      | (.ok r, t) => (.ok (.ok r), ⟨t, s.log⟩)
      | (.error .interrupt, t) => (.error .interrupt, ⟨t, s.log⟩)
      | (.error e, t) => (.ok (.error e), ⟨t, if b then s.log ++ [.traceback e] else s.log⟩) := by
  unfold MM.tryRun MM.liftR
  rw [runnerRun_path hp]
  cases h : RM.run1 p s.rs with
  | mk out t =>
    cases out with
    | ok r => rfl
    | error e => cases e <;> cases b <;> rfl

theorem tryRun_ok {p : List String} (hp : Sections p) {s : MS V} {r : RM.RunRes V} {t : RS V}
    (h : RM.run1 p s.rs = (.ok r, t)) (b : Bool) :
    MM.tryRun (MM.liftR (MM.runnerRun noPost (.str (join '.' p)))) b s = (.ok (.ok r), ⟨t, s.log⟩) := by
  rw [tryRun_path hp, h]

theorem tryRun_interrupt {p : List String} (hp : Sections p) {s : MS V} {t : RS V}
    (h : RM.run1 p s.rs = (.error .interrupt, t)) (b : Bool) :
    MM.tryRun (MM.liftR (MM.runnerRun noPost (.str (join '.' p)))) b s = (.error .interrupt, ⟨t, s.log⟩) := by
  rw [tryRun_path hp, h]

theorem tryRun_error {p : List String} (hp : Sections p) {s : MS V} {e : PyErr} {t : RS V}
    (h : RM.run1 p s.rs = (.error e, t)) (he : e ≠ .interrupt) :
    MM.tryRun (MM.liftR (MM.runnerRun noPost (.str (join '.' p)))) false s = (.ok (.error e), ⟨t, s.log⟩) := by
  rw [tryRun_path hp, h]
  cases e <;> first | rfl | exact absurd rfl he

theorem log_run (e : LogEntry) (s : MS V) : MM.log e s = (.ok (), ⟨s.rs, s.log ++ [e]⟩) := rfl

theorem forceLoop_cons (p : List String) (ps : List (List String)) :
    MM.forceLoop (V := V) noPost (vals (p :: ps)) =
      (MM.tryRun (MM.liftR (MM.runnerRun noPost (.str (join '.' p)))) false >>= fun x => (match x with
        | .ok r => MM.forceLoop noPost (vals ps) >>= fun y => pure (r :: y.1, y.2)
        | .error e => MM.log (.failed (.str (join '.' p)) e) >>= fun _ =>
          MM.forceLoop noPost (vals ps) >>= fun y => pure (y.1, (.str (join '.' p), e) :: y.2))) := by
  rfl

theorem forceLoop_attempted {ps : List (List String)} (hp : ∀ p ∈ ps, Sections p) {s t : RS V}
    {outs : List (Except PyErr (RM.RunRes V))} (h : Attempted s ps outs t) (log : List LogEntry) :
    MM.forceLoop noPost (vals ps) ⟨s, log⟩ =
      (.ok (successes outs, (failures ps outs).map reported), ⟨t, log ++ loggedFailures (failures ps outs)⟩) := by
  induction h generalizing log with
  | nil s => simp [vals, MM.forceLoop, successes, failures, loggedFailures]
  | @cons s s1 s2 p ps out outs h1 hi h2 ih =>
    have ih := ih (fun q hq => hp q (List.mem_cons_of_mem _ hq))
    have hs := hp p List.mem_cons_self
    rw [forceLoop_cons]
    cases out with
    | ok r =>
      rw [M.bind_ok (tryRun_ok (s := ⟨s, log⟩) hs h1 _)]
      simp only
      rw [M.bind_ok (ih log)]
      rfl
    | error e =>
      rw [M.bind_ok (tryRun_error (s := ⟨s, log⟩) hs h1 (fun hh => hi (by rw [hh])))]
      simp only
      rw [M.bind_ok (log_run _ _), M.bind_ok (ih _)]
      simp [failures, successes, loggedFailures, reported]

theorem forceLoop_interrupted {ps1 : List (List String)} {p : List String} {ps2 : List (List String)}
    (hp : ∀ q ∈ ps1 ++ p :: ps2, Sections q) {s s1 t : RS V}
    {outs : List (Except PyErr (RM.RunRes V))} (h : Attempted s ps1 outs s1)
    (hi : RM.run1 p s1 = (.error .interrupt, t)) (log : List LogEntry) :
    MM.forceLoop noPost (vals (ps1 ++ p :: ps2)) ⟨s, log⟩ =
      (.error .interrupt, ⟨t, log ++ loggedFailures (failures ps1 outs)⟩) := by
  induction h generalizing log with
  | nil s =>
    rw [List.nil_append, forceLoop_cons, M.bind_error (tryRun_interrupt (s := ⟨s, log⟩) (hp p (by simp)) hi _)]
    simp [failures, loggedFailures]
  | @cons s s1 s2 q ps out outs h1 hni h2 ih =>
    have ih := ih (fun q hq => hp q (List.mem_cons_of_mem _ hq)) hi
    have hs := hp q (by simp)
    rw [List.cons_append, forceLoop_cons]
    cases out with
    | ok r =>
      rw [M.bind_ok (tryRun_ok (s := ⟨s, log⟩) hs h1 _)]
      simp only
      rw [M.bind_error (ih log)]
      rfl
    | error e =>
      rw [M.bind_ok (tryRun_error (s := ⟨s, log⟩) hs h1 (fun hh => hni (by rw [hh])))]
      simp only
      rw [M.bind_ok (log_run _ _), M.bind_error (ih _)]
      simp [failures, loggedFailures]

theorem report_run (fs : List (List String × PyErr)) (s : MS V) :
    MM.report (fs.map reported) s = (.ok (), ⟨s.rs, s.log ++ [finalReport fs]⟩) := by
  unfold MM.report finalReport
  cases fs <;> simp [MM.log]

/-- C22 for lists that do not have exactly one entry: with `force_continue`, if no attempt is
interrupted by the user, then every path is attempted exactly once and in order, whatever the earlier
ones did; the result is the list of the results of the successful ones, in order, and every failure is
reported with its path.  (A list with one entry is treated like the entry itself, see `C22_single`
and `C21_one_entry_violated`.) -/
theorem C22_force_continue_partial [BEq V] (xs : List PathLike) (ps : List (List String)) (h : NamesAll xs ps)
    (h1 : xs.length ≠ 1) (s : MS V) (outs : List (Except PyErr (RM.RunRes V))) (t : RS V)
    (ha : Attempted s.rs ps outs t) :
    MM.run forcing .none (.list xs) s = (.ok (some (.many (successes outs))),
      ⟨t, s.log ++ loggedFailures (failures ps outs) ++ [finalReport (failures ps outs)]⟩) := by
  rw [run_list h h1]
  show (MM.forceContinue noPost (.list (vals ps)) >>= fun r => pure (some r)) s = _
  show ((MM.forceLoop noPost (vals ps) >>= fun x => MM.report x.2 >>= fun _ => pure (RM.RunRes.many x.1)) >>=
    fun r => pure (some r)) s = _
  rw [M.bind_run, M.bind_run, forceLoop_attempted h.sections ha s.log]
  simp only [M.bind_run]
  rw [report_run]
  rfl

/-- C22: the only way not to attempt everything is a user interrupt, which ends the run. -/
theorem C22_interrupt [BEq V] (xs : List PathLike) (ps : List (List String)) (h : NamesAll xs ps)
    (h1 : xs.length ≠ 1) (s : MS V) :
    (∃ outs t, Attempted s.rs ps outs t) ∨
    ∃ ps1 p ps2 outs s1 t, ps = ps1 ++ p :: ps2 ∧ Attempted s.rs ps1 outs s1 ∧
      RM.run1 p s1 = (.error .interrupt, t) ∧
      MM.run forcing .none (.list xs) s = (.error .interrupt, ⟨t, s.log ++ loggedFailures (failures ps1 outs)⟩) := by
  rcases attempted_or_interrupted ps s.rs with hh | ⟨ps1, p, ps2, outs, s1, t, he, ha, hi⟩
  · exact .inl hh
  · refine .inr ⟨ps1, p, ps2, outs, s1, t, he, ha, hi, ?_⟩
    subst he
    rw [run_list h h1]
    show ((MM.forceLoop noPost (vals (ps1 ++ p :: ps2)) >>= fun x => MM.report x.2 >>= fun _ =>
      pure (RM.RunRes.many x.1)) >>= fun r => pure (some r)) s = _
    rw [M.bind_run, M.bind_run, forceLoop_interrupted h.sections ha hi s.log]

/-- C22 for a single path: its result, or the empty list if it failed. -/
theorem C22_single [BEq V] (x : PathLike) (p : List String) (h : Names x p) (s : MS V) :
    MM.run forcing .none (.single x) s = match RM.run1 p s.rs with
      | (.ok r, t) => (.ok (some r), ⟨t, s.log ++ [.allWell]⟩)
      | (.error .interrupt, t) => (.error .interrupt, ⟨t, s.log⟩)
      | (.error e, t) => (.ok (some (.many [])),
          ⟨t, s.log ++ [.failed (.str (join '.' p)) e, .summary [(.str (join '.' p), e)]]⟩) := by
  rw [run_single h]
  show (MM.forceContinue noPost (.str (join '.' p)) >>= fun r => pure (some r)) s = _
  show ((MM.forceLoop noPost [.str (join '.' p)] >>= fun x => MM.report x.2 >>= fun _ =>
    (match x.1 with
    | [] => return .many []
    | [r] => return r
    | _ => M.raise .valueError : MM V (RM.RunRes V))) >>= fun r => pure (some r)) s = _
  rw [M.bind_run, M.bind_run]
  have hsec : ∀ q ∈ [p], Sections q := by
    intro q hq
    rw [List.mem_singleton] at hq
    subst hq
    exact h.sections
  cases hr : RM.run1 p s.rs with
  | mk out t =>
  by_cases hi : out = .error .interrupt
  · subst hi
    have := forceLoop_interrupted (ps1 := []) (ps2 := []) hsec (.nil s.rs) hr s.log
    rw [show ([.str (join '.' p)] : List RunVal) = vals ([] ++ [p]) from rfl, this]
    simp [failures, loggedFailures]
  · have := forceLoop_attempted hsec (.cons hr hi (.nil t)) s.log
    rw [show ([.str (join '.' p)] : List RunVal) = vals [p] from rfl, this]
    simp only [M.bind_run]
    rw [report_run]
    cases out with
    | ok r => simp [successes, failures, loggedFailures, finalReport]
    | error e =>
      cases e <;> first
        | exact absurd rfl hi
        | simp [successes, failures, loggedFailures, finalReport, reported]

/-- A function that raises. -/
def demoFailing : Callable Nat := { demoFunc with app := fun _ => .error (.userError 1) }

/-- Three attempts of which the first and last fail. -/
example : (match MM.run forcing .none (.list [.str "main.data.func", .str "main.data.noargs", .str "main.data.func"])
      (⟨demoRunner demoFailing, []⟩ : MS Nat) with
    | (.ok (some (.many rs)), s) => (flats rs, s.log.length)
    | _ => ([], 0)) = ([0], 3) := by decide +kernel

example : ∃ outs t, Attempted (demoRunner demoFailing) [demoPath, ["main", "data", "noargs"]] outs t ∧
    failures [demoPath, ["main", "data", "noargs"]] outs = [(demoPath, .userError 1)] :=
  ⟨_, _, .cons rfl (by intro h; cases h) (.cons rfl (by intro h; cases h) (.nil _)), rfl⟩

/-- C22 fails for the items of a section: with `force_continue`, the first one that raises ends the
run of its section.  Whatever the section has after it is not attempted (the state is that after
this item), and the failure is reported with the path of the section. -/
theorem C22_section_violated [BEq V] (x : PathLike) (p : List String) (h : Names x p) (s : MS V) (y : String)
    (k : Callable V) (rest : List (String × Reg V)) (e : PyErr) (t : RS V)
    (hr : RM.lookup p s.rs = (.ok (.coll false ((y, .item k) :: rest)), s.rs)) (hi : e ≠ .interrupt)
    (hk : RM.runInside p y k s.rs = (.error e, t)) :
    MM.run forcing .none (.single x) s = (.ok (some (.many [])),
      ⟨t, s.log ++ [.failed (.str (join '.' p)) e, .summary [(.str (join '.' p), e)]]⟩) := by
  have hrun : RM.run1 p s.rs = (.error e, t) := by
    unfold RM.run1
    rw [M.bind_ok (M.get_run _), M.bind_ok hr]
    show RM.runSection (s.rs.reg.depth + 1) p s.rs = _
    rw [RM.runSection, M.bind_ok hr]
    simp only
    rw [M.bind_run, RM.runItems, M.bind_run, hk]
  rw [C22_single x p h s, hrun]
  cases e <;> first
    | exact absurd rfl hi
    | rfl

/-- The section `main.data` of the demo project, whose first function raises. -/
example : ∃ t, RM.lookup ["main", "data"] (demoRunner demoFailing) =
      (.ok (.coll false [("func", .item demoFailing), ("noargs", .item demoFunc)]), demoRunner demoFailing) ∧
    RM.runInside ["main", "data"] "func" demoFailing (demoRunner demoFailing) = (.error (.userError 1), t) ∧
    t.objs.contains ["main", "data", "noargs"] = false := ⟨_, rfl, rfl, by decide +kernel⟩

/-! ## C55 -/

/-- C55: with `auto_pdb`, a run that succeeds gives what it gives without; a run that fails is
debugged and gives `None`; a user interrupt ends it. -/
theorem C55_auto_pdb [BEq V] (x : PathLike) (p : List String) (h : Names x p) (s : MS V) :
    MM.run debugging .none (.single x) s = match RM.run1 p s.rs with
      | (.ok r, t) => (.ok (some r), ⟨t, s.log⟩)
      | (.error .interrupt, t) => (.error .interrupt, ⟨t, s.log⟩)
      | (.error e, t) => (.ok none, ⟨t, s.log ++ [.traceback e]⟩) := by
  rw [run_single h]
  show (MM.tryRun (MM.liftR (MM.runnerRun noPost (.str (join '.' p)))) true >>= _) s = _
  rw [M.bind_run, tryRun_path h.sections]
  cases hr : RM.run1 p s.rs with
  | mk out t =>
    cases out with
    | ok r => rfl
    | error e => cases e <;> rfl

example : (MM.run debugging .none (.single (.str "main.data.func")) (⟨demoRunner demoFailing, []⟩ : MS Nat)).2.log.length = 1 ∧
    outcome (MM.run debugging .none (.single (.str "main.data.func")) demoManager) = some (false, [230]) := by
  decide +kernel

/-! ## C54 -/

/-- Plugins that ask for further paths before a run. -/
def asksFor (qs : List (List String)) : RunHooks V := ⟨fun a => (a, vals qs), noPost⟩

/-- Plugins that add results after a run. -/
def adds (extra : List (RM.RunRes V)) : RunHooks V := ⟨fun a => (a, []), fun _ => extra⟩

/-- What the user asks for. -/
inductive ArgNames : RunArg → List (List String) → Prop where
  | single {x : PathLike} {p : List String} : Names x p → ArgNames (.single x) [p]
  | list {xs : List PathLike} {ps : List (List String)} : NamesAll xs ps → ArgNames (.list xs) ps

theorem ArgNames.sections {a : RunArg} {ps : List (List String)} (h : ArgNames a ps) : ∀ p ∈ ps, Sections p := by
  cases h with
  | single h => intro p hp; rw [List.mem_singleton] at hp; subst hp; exact h.sections
  | list h => exact h.sections

theorem convertArg_names {a : RunArg} {ps : List (List String)} (h : ArgNames a ps) :
    ∃ v, convertArg a = .ok v ∧ toList v = vals ps := by
  cases h with
  | single h =>
    refine ⟨.str _, ?_, rfl⟩
    simp only [convertArg, convertOne_names h]
    rfl
  | list h =>
    refine ⟨.list (vals ps), ?_, rfl⟩
    simp only [convertArg, convertAll_names h]
    show Except.ok (RunVal.list (List.map RunVal.str (List.map (join '.') ps))) = _
    rw [List.map_map]
    rfl

/-- C54: paths that plugins ask for are run after those the user asked for, and their results come
after theirs. -/
theorem C54_additional_paths [BEq V] (a : RunArg) (ps qs : List (List String)) (h : ArgNames a ps)
    (hq : ∀ q ∈ qs, Sections q) (h1 : (ps ++ qs).length ≠ 1) (s s' : MS V) (out : Option (RM.RunRes V)) :
    MM.run plainSettings (asksFor qs) a s = (.ok out, s') ↔
      ∃ rs, out = some (.many rs) ∧ Ran s.rs (ps ++ qs) rs s'.rs ∧ s'.log = s.log := by
  obtain ⟨v, hv, hl⟩ := convertArg_names h
  have hce : combineExtract v (vals qs) = .list (vals (ps ++ qs)) := by
    unfold combineExtract combineItems
    rw [hl, show vals ps ++ vals qs = vals (ps ++ qs) by unfold vals; rw [List.map_append]]
    have hl : (vals (ps ++ qs)).length ≠ 1 := by unfold vals; rw [List.length_map]; exact h1
    split
    · rename_i x hx; rw [show vals _ = [x] from hx] at hl; exact absurd rfl hl
    · rfl
  have hsec : ∀ p ∈ ps ++ qs, Sections p := by
    intro p hp
    rcases List.mem_append.1 hp with hp | hp
    · exact h.sections p hp
    · exact hq p hp
  unfold MM.run
  rw [hv, M.bind_run, M.liftE_run]
  simp only
  rw [show ((asksFor qs : RunHooks V).preRun a).2 = vals qs from rfl, hce]
  show (MM.liftR (MM.runnerRun noPost (.list (vals (ps ++ qs)))) >>= fun r => pure (some r)) s = _ ↔ _
  rw [M.bind_run]
  unfold MM.liftR MM.runnerRun
  simp only [M.bind_run]
  constructor
  · intro hh
    cases h2 : MM.runEntries (vals (ps ++ qs)) s.rs with
    | mk y t =>
      rw [h2] at hh
      cases y with
      | error e => cases hh
      | ok rs =>
        cases hh
        have hr := (runEntries_ok hsec _ _ _).1 h2
        exact ⟨rs ++ [], rfl, by rw [List.append_nil]; exact hr, rfl⟩
  · rintro ⟨rs, rfl, hr, hl⟩
    rw [(runEntries_ok hsec _ _ _).2 hr]
    simp only [M.pure_run]
    have : s' = ⟨s'.rs, s.log⟩ := by cases s'; simp only at hl; rw [hl]
    rw [this]
    show (_, _) = (_, _)
    rw [show rs ++ noPost (RM.RunRes.many rs) = rs from List.append_nil rs]

example : ArgNames (.single (.str "main.data.func")) [demoPath] ∧
    outcome (MM.run plainSettings (asksFor [["main", "data", "noargs"]]) (.single (.str "main.data.func")) demoManager) =
      some (true, [230, 0]) :=
  ⟨.single (.str demoPath ⟨by decide, by decide⟩), by decide +kernel⟩

/-- C54: results that plugins add come after those of the run; a single result becomes a list
then. -/
theorem C54_additional_results [BEq V] (extra : List (RM.RunRes V)) (hne : extra ≠ []) (x : PathLike) (p : List String)
    (h : Names x p) (s : MS V) (r : RM.RunRes V) (t : RS V) (hr : RM.run1 p s.rs = (.ok r, t)) :
    MM.run plainSettings (adds extra) (.single x) s = (.ok (some (.many (r :: extra))), ⟨t, s.log⟩) := by
  have hc : convertArg (.single x) = .ok (.str (join '.' p)) := by
    simp only [convertArg, convertOne_names h]
    rfl
  unfold MM.run
  rw [hc, M.bind_run, M.liftE_run]
  show (MM.liftR (MM.runnerRun (fun _ => extra) (.str (join '.' p))) >>= fun r => pure (some r)) s = _
  have hrr : MM.runnerRun (fun _ => extra) (.str (join '.' p)) s.rs = (.ok (.many (r :: extra)), t) := by
    cases extra with
    | nil => exact absurd rfl hne
    | cons e es =>
      show (MM.runEntry (V := V) (.str (join '.' p)) >>= fun r => pure (RM.RunRes.many (r :: e :: es))) s.rs = _
      rw [runEntry_path h.sections, M.bind_run, hr]
      rfl
  rw [M.bind_run]
  unfold MM.liftR
  rw [hrr]
  rfl

/-- C54 fails for plugins that change the list in place, which the hook allows: what they make of
it does not matter. -/
theorem C54_in_place_violated [BEq V] (hooks : RunHooks V) (change : RunArg → RunArg) (st : RunSettings) (a : RunArg)
    (s : MS V) :
    MM.run st { hooks with preRun := fun a => (change a, (hooks.preRun a).2) } a s = MM.run st hooks a s := rfl

/-- C54 fails for plugins that return a list of paths, which the hook allows: the list is not
taken apart, so the run raises. -/
theorem C54_list_violated :
    (MM.run plainSettings ⟨fun a => (a, [.list [.str "main.data.noargs"]]), fun _ => []⟩
      (.single (.str "main.data.func")) demoManager).1 = .error .attributeError := by
  rfl

end Verif.Props
