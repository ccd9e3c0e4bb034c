import Verif.Props.Reaches

/-
Property theorems about refreshing dependents when something raises: C113.
-/

namespace Verif.Props
open Verif.Py Verif.Model

variable {V : Type}

/-! ## Specification -/

/-- A history of operations, each of which returned or raised. -/
inductive AnyHistory [BEq V] (w : World V) : List (GOp V) → GS V → Prop where
  | start : AnyHistory w [] GS.new
  | op {ops s} (o : GOp V) (n : Nat) : AnyHistory w ops s → AnyHistory w (ops ++ [o]) (GM.op w n o s).2

/-- What is configured for `q` is what its file gives under the present configuration of all items, with its own updates on top, but for
keys that the file does not assign in every case, which may be missing (see C28). -/
def UpToDate (w : World V) (s : GS V) (q : String) (c : Conf V) : Prop :=
  ∃ d, Gives w (fun p => (s.conf p).map Conf.values) (w.files q) d ∧
    ∀ k v, (d.update c.applied).get? k = some v →
      c.values.get? k = some v ∨ (c.values.get? k = none ∧ ∃ d', Ends (w.files q) d' ∧ d'.get? k = none)

/-! ## Lemmas -/

/-- What holds whatever happened. -/
abbrev Basic (w : World V) (s : GS V) : Prop := Inv w (fun _ => True) s

theorem Basic.mk' {w : World V} {s : GS V} (sync : ∀ p o, s.obj p = some o → ∃ c, s.conf p = some c ∧ c.values = o)
    (has : ∀ q c, s.conf q = some c → HasKeys (w.files q) c) : Basic w s := ⟨sync, has, fun _ _ _ h => absurd trivial h⟩

theorem runFile_basic {w : World V} {get : String → GM V (Dict String V)} {q : String}
    (hget : ∀ p s, Basic w s → Basic w (get p s).2) (prog : FileProg V) :
    ∀ s, Basic w s → Basic w (GM.runFile w get q prog s).2 ∧ ∀ d, (GM.runFile w get q prog s).1 = .ok d → Ends prog d := by
  induction prog with
  | done d =>
    intro s hi
    refine ⟨hi, fun d' h => ?_⟩
    cases h
    exact .done
  | raise e => exact fun s hi => ⟨hi, fun d h => by cases h⟩
  | read p a next ih =>
    intro s hi
    unfold GM.runFile
    rw [M.bind_ok (M.modify_run _ s)]
    have i1 := hget p _ (hi.addForced q p)
    cases hg : get p (s.addForced q p) with
    | mk res s1 =>
      rw [hg] at i1
      cases res with
      | error e =>
        rw [M.bind_error hg]
        exact ⟨i1, fun d h => by cases h⟩
      | ok o =>
        rw [M.bind_ok hg]
        cases hv : w.attr p o a with
        | error e => exact ⟨i1, fun d h => by cases h⟩
        | ok v =>
          obtain ⟨i2, e2⟩ := ih v s1 i1
          exact ⟨i2, fun d h => .later (e2 d h)⟩

theorem confOf_basic {w : World V} {q : String} {run : GM V (Dict String V)}
    (hrun : ∀ s, Basic w s → Basic w (run s).2 ∧ ∀ d, (run s).1 = .ok d → Ends (w.files q) d)
    (hself : ∀ s d s', s.conf q = none → s.obj q = none → run s = (.ok d, s') → s'.conf q = none ∧ s'.obj q = none)
    (s : GS V) (hi : Basic w s) :
    Basic w (GM.confOf run q s).2 ∧ ∀ c, (GM.confOf run q s).1 = .ok c → (GM.confOf run q s).2.conf q = some c := by
  unfold GM.confOf
  rw [M.bind_ok (M.get_run s)]
  cases hc : s.conf q with
  | some c0 =>
    refine ⟨hi, fun c h => ?_⟩
    cases h
    exact hc
  | none =>
    dsimp only
    obtain ⟨i1, e1⟩ := hrun s hi
    cases hr : run s with
    | mk res s1 =>
      rw [hr] at i1 e1
      cases res with
      | error e =>
        rw [M.bind_error hr]
        exact ⟨i1, fun c h => by cases h⟩
      | ok d =>
        rw [M.bind_ok hr, M.bind_ok (M.modify_run _ s1)]
        have ho : s.obj q = none := by
          cases ho : s.obj q with
          | none => rfl
          | some o =>
            obtain ⟨c, hc', _⟩ := hi.sync q o ho
            rw [hc] at hc'; cases hc'
        have hc1 := (hself s d s1 hc ho hr).1
        refine ⟨.mk' ?_ ?_, ?_⟩
        · intro p o hp
          obtain ⟨c, hcp, hv⟩ := i1.sync p o hp
          have hne : p ≠ q := by
            rintro rfl
            rw [hc1] at hcp
            cases hcp
          exact ⟨c, by rw [← hcp]; exact setAt_ne _ _ hne, hv⟩
        · intro p c hp
          have hp : setAt s1.conf q (some (Conf.ofFile (.item []) d)) p = some c := hp
          by_cases hpq : p = q
          · subst hpq
            simp only [setAt_same, Option.some.injEq] at hp
            subst hp
            exact ⟨d, e1 d rfl, fun k hk => hk⟩
          · rw [setAt_ne _ _ hpq] at hp
            exact i1.has p c hp
        · intro c h
          cases h
          exact setAt_same _ _ _

theorem getItem_basic (w : World V) (n : Nat) : ∀ q s, Basic w s → Basic w (GM.getItem w n q s).2 := by
  induction n with
  | zero => exact fun q s hi => hi
  | succ n ih =>
    intro q s hi
    unfold GM.getItem
    rw [M.bind_ok (M.get_run s)]
    cases ho : s.obj q with
    | some o0 => exact hi
    | none =>
      dsimp only
      obtain ⟨i1, c1⟩ := confOf_basic (runFile_basic ih (w.files q)) (fun _ _ _ h1 h2 h3 => runFile_not_itself h1 h2 h3) s hi
      cases hg : GM.confOf (GM.runFile w (GM.getItem w n) q (w.files q)) q s with
      | mk res s1 =>
        rw [hg] at i1 c1
        cases res with
        | error e =>
          rw [M.bind_error hg]
          exact i1
        | ok c =>
          rw [M.bind_ok hg, M.bind_ok (M.modify_run _ s1)]
          refine .mk' ?_ i1.has
          intro p o hp
          have hp : setAt s1.obj q (some c.values) p = some o := hp
          by_cases hpq : p = q
          · subst hpq
            simp only [setAt_same, Option.some.injEq] at hp
            exact ⟨c, c1 c rfl, hp⟩
          · rw [setAt_ne _ _ hpq] at hp
            exact i1.sync p o hp

theorem evalFile_basic (w : World V) (n : Nat) (q : String) :
    ∀ s, Basic w s → Basic w (GM.evalFile w n q s).2 ∧ ∀ d, (GM.evalFile w n q s).1 = .ok d → Ends (w.files q) d :=
  runFile_basic (getItem_basic w n) (w.files q)

theorem conf_basic (w : World V) (n : Nat) (q : String) (s : GS V) (hi : Basic w s) :
    Basic w (GM.confOf (GM.evalFile w n q) q s).2 ∧
      ∀ c, (GM.confOf (GM.evalFile w n q) q s).1 = .ok c → (GM.confOf (GM.evalFile w n q) q s).2.conf q = some c :=
  confOf_basic (evalFile_basic w n q) (fun _ _ _ h1 h2 h3 => runFile_not_itself h1 h2 h3) s hi

/-- It keeps what holds whatever happened. -/
def KeepsBasic {α : Type} (w : World V) (m : GM V α) : Prop := ∀ s, Basic w s → Basic w (m s).2

theorem KeepsBasic.bind {α β : Type} {w : World V} {m : GM V α} {f : α → GM V β} (hm : KeepsBasic w m) (hf : ∀ a, KeepsBasic w (f a)) :
    KeepsBasic w (m >>= f) := by
  intro s hi
  have h := hm s hi
  rw [M.bind_run]
  cases hr : m s with
  | mk res s1 =>
    rw [hr] at h
    cases res with
    | error e => exact h
    | ok a => exact hf a s1 h

theorem KeepsBasic.same {α : Type} {w : World V} {m : GM V α} (h : ∀ s, (m s).2 = s) : KeepsBasic w m := fun s hi => by rw [h]; exact hi

theorem each_basic {w : World V} {refresh : String → GM V Unit} (hr : ∀ q, KeepsBasic w (refresh q)) (xs : List String) :
    KeepsBasic w (GM.each refresh xs) := by
  induction xs with
  | nil => exact .same (fun _ => rfl)
  | cons x xs ih => exact .bind (hr x) (fun _ => ih)

theorem loop_basic {w : World V} {refresh : String → GM V Unit} (hr : ∀ q, KeepsBasic w (refresh q)) (p : String) (n : Nat) :
    ∀ todo done, KeepsBasic w (GM.dependentsLoop w refresh p n todo done) := by
  induction n with
  | zero =>
    intro todo done
    unfold GM.dependentsLoop
    split
    · exact .same (fun _ => rfl)
    · exact .same (fun _ => rfl)
  | succ n ih =>
    intro todo done
    unfold GM.dependentsLoop
    split
    · exact .same (fun _ => rfl)
    · refine .bind (.same (fun _ => rfl)) (fun s0 => .bind (each_basic hr _) (fun _ => .bind (.same (fun _ => rfl)) (fun s1 => ?_)))
      dsimp only
      split
      · exact .same (fun _ => rfl)
      · exact ih _ _

/-- After the config of `q` was replaced by `c'`. -/
theorem apply_basic {w : World V} {refresh : String → GM V Unit} (hr : ∀ q, KeepsBasic w (refresh q)) (n : Nat) (q : String)
    (c' : Conf V) (announced : Dict String V) (s : GS V) (hi : Basic w s) (hk : HasKeys (w.files q) c') :
    Basic w (GM.applyAndRefresh w refresh n q c'.values announced { s with conf := setAt s.conf q (some c') }).2 := by
  have has : ∀ p c, setAt s.conf q (some c') p = some c → HasKeys (w.files p) c := by
    intro p c hp
    by_cases hpq : p = q
    · subst hpq
      simp only [setAt_same, Option.some.injEq] at hp
      subst hp
      exact hk
    · rw [setAt_ne _ _ hpq] at hp
      exact hi.has p c hp
  unfold GM.applyAndRefresh
  rw [M.bind_ok (M.get_run _)]
  cases ho : s.obj q with
  | none =>
    simp only [ho]
    refine .mk' ?_ has
    intro p o hp
    have hne : p ≠ q := by rintro rfl; rw [show s.obj p = some o from hp] at ho; cases ho
    obtain ⟨c, hc, hcv⟩ := hi.sync p o hp
    exact ⟨c, by rw [← hc]; exact setAt_ne _ _ hne, hcv⟩
  | some o =>
    simp only [ho]
    rw [M.bind_ok (M.modify_run _ _)]
    have hb : Basic w (⟨setAt s.conf q (some c'), setAt s.obj q (some c'.values), s.forced⟩ : GS V) := by
      refine .mk' ?_ has
      intro p o hp
      have hp : setAt s.obj q (some c'.values) p = some o := hp
      by_cases hpq : p = q
      · subst hpq
        simp only [setAt_same, Option.some.injEq] at hp
        exact ⟨c', setAt_same _ _ _, hp⟩
      · rw [setAt_ne _ _ hpq] at hp
        obtain ⟨c, hc, hcv⟩ := hi.sync p o hp
        exact ⟨c, by rw [← hc]; exact setAt_ne _ _ hpq, hcv⟩
    split
    · exact hb
    · unfold GM.refreshDependents
      rw [M.bind_ok (M.get_run _)]
      exact loop_basic hr q n _ _ _ hb

theorem refresh_basic [BEq V] (w : World V) (n : Nat) :
    ∀ q, KeepsBasic w (GM.refresh w n q) := by
  induction n with
  | zero => exact fun q s hi => hi
  | succ n ih =>
    intro q s hi
    unfold GM.refresh
    obtain ⟨i1, c1⟩ := conf_basic w n q s hi
    cases h1 : GM.confOf (GM.evalFile w n q) q s with
    | mk res s1 =>
      rw [h1] at i1 c1
      cases res with
      | error e => rw [M.bind_error h1]; exact i1
      | ok c =>
        rw [M.bind_ok h1]
        have k1 := i1.has q c (c1 c rfl)
        obtain ⟨i2, _⟩ := evalFile_basic w n q s1 i1
        cases h2 : GM.evalFile w n q s1 with
        | mk res s2 =>
          rw [h2] at i2
          cases res with
          | error e => rw [M.bind_error h2]; exact i2
          | ok d =>
            rw [M.bind_ok h2]
            split
            · exact i2
            · obtain ⟨i3, _⟩ := evalFile_basic w n q s2 i2
              cases h3 : GM.evalFile w n q s2 with
              | mk res s3 =>
                rw [h3] at i3
                cases res with
                | error e => rw [M.bind_error h3]; exact i3
                | ok d3 =>
                  rw [M.bind_ok h3]
                  cases hr : c.refresh d3 with
                  | error e => exact i3
                  | ok r =>
                    obtain ⟨c', ups⟩ := r
                    dsimp only
                    rw [M.bind_ok (M.modify_run _ s3)]
                    refine apply_basic ih n q c' _ s3 i3 (k1.update (fun k hk => ?_))
                    rw [(refresh_values hr).1]
                    exact get?_update_ne_none _ _ k hk

theorem update_basic [BEq V] (w : World V) (n : Nat) (q : String)
    (d : Option (Dict String V)) (persist : Bool) (kw : Dict String V) : KeepsBasic w (GM.update w n q d persist kw) := by
  intro s hi
  unfold GM.update
  obtain ⟨i1, c1⟩ := conf_basic w n q s hi
  cases h1 : GM.confOf (GM.evalFile w n q) q s with
  | mk res s1 =>
    rw [h1] at i1 c1
    cases res with
    | error e => rw [M.bind_error h1]; exact i1
    | ok c =>
      rw [M.bind_ok h1]
      have k1 := i1.has q c (c1 c rfl)
      cases hd : CMM.determineWouldUpdate c d kw with
      | error e => exact i1
      | ok would =>
        rw [M.bind_ok (show GM.ofExcept (.ok would) s1 = (.ok would, s1) from rfl)]
        cases would with
        | false => exact i1
        | true =>
          simp only [if_true]
          split
          · exact i1
          · rw [M.bind_ok (M.modify_run _ s1)]
            refine apply_basic (refresh_basic w n) n q (c.update d persist kw) _ s1 i1 (k1.update (fun k hk => ?_))
            exact get?_update_ne_none _ _ k (get?_update_ne_none _ _ k hk)

theorem reset_basic [BEq V] (w : World V) (n : Nat) (q : String) :
    KeepsBasic w (GM.reset w n q) := by
  intro s hi
  unfold GM.reset
  obtain ⟨i1, e1⟩ := evalFile_basic w n q s hi
  cases h1 : GM.evalFile w n q s with
  | mk res s1 =>
    rw [h1] at i1 e1
    cases res with
    | error e => rw [M.bind_error h1]; exact i1
    | ok d =>
      rw [M.bind_ok h1]
      refine KeepsBasic.bind (m := M.tryCatch _ _) ?_ (fun cur => ?_) s1 i1
      · intro s hi
        obtain ⟨i2, _⟩ := conf_basic w n q s hi
        unfold M.tryCatch
        cases h2 : GM.confOf (GM.evalFile w n q) q s with
        | mk res s2 =>
          rw [h2] at i2
          cases res with
          | ok c => rw [M.bind_ok h2]; exact i2
          | error e =>
            rw [M.bind_error h2]
            dsimp only
            split <;> exact i2
      · have hj : ∀ would : Bool, KeepsBasic w (if would = true then (do
              M.modify fun s => { s with conf := setAt s.conf q (some (Conf.ofFile (.item []) d)) }
              GM.applyAndRefresh w (GM.refresh w n) n q d d : GM V Unit) else pure ()) := by
          intro would s hi
          split
          · rw [M.bind_ok (M.modify_run _ s)]
            exact apply_basic (refresh_basic w n) n q (Conf.ofFile (.item []) d) _ s hi ⟨d, e1 d rfl, fun k hk => hk⟩
          · exact hi
        cases cur with
        | none => exact .bind (.same (fun _ => rfl)) hj
        | some c => exact .bind (.same (fun s => by cases CMM.determineWouldUpdate c none d <;> rfl)) hj

theorem anyHistory_basic [BEq V] {w : World V} {ops : List (GOp V)} {s : GS V}
    (h : AnyHistory w ops s) : Basic w s := by
  induction h with
  | start => exact .start w _
  | @op ops s o n _ ih =>
    cases o with
    | get q =>
      show Basic w ((GM.getItem w n q >>= fun _ => return ()) s).2
      exact KeepsBasic.bind (m := GM.getItem w n q) (getItem_basic w n q)
        (fun _ => .same (fun _ => rfl)) s ih
    | update q d persist kw => exact update_basic w n q d persist kw s ih
    | refresh q => exact refresh_basic w n q s ih
    | reset q => exact reset_basic w n q s ih
    | used d o => exact ih.addForced d o

theorem Inv.upToDate {w : World V} {B : String → Prop} {s : GS V} (hi : Inv w B s) {q : String} {c : Conf V} (hc : s.conf q = some c)
    (hq : ¬ B q) : UpToDate w s q c := by
  obtain ⟨d, t, a⟩ := hi.settled q c hc hq
  refine ⟨d, t.gives hi, fun k v hk => (a k v hk).imp id (fun hn => ⟨hn, ?_⟩)⟩
  obtain ⟨d', hd', hk'⟩ := hi.has q c hc
  refine ⟨d', hd', ?_⟩
  cases hdk : d'.get? k with
  | none => rfl
  | some x => exact absurd hn (hk' k (by rw [hdk]; simp))

theorem Reached.snoc {dep : String → String → Prop} {q p x : String} (h : Reached dep q p) (hd : dep p x) : Reached dep q x := by
  induction h with
  | self => exact .next hd .self
  | next h _ ih => exact .next h (ih hd)

theorem Tracked.elsewhere {w : World V} {s t : GS V} {q : String} {prog : FileProg V} {d : Dict String V} (h : Tracked w s q prog d)
    (hs : ∀ p o, s.obj p = some o → ∃ c, s.conf p = some c ∧ c.values = o)
    (hu : ∀ p, Reads prog p → ∀ c, s.conf p = some c → t.conf p = some c) :
    Gives w (fun p => (t.conf p).map Conf.values) prog d := by
  induction h with
  | done => exact .done
  | @read p a next o v d ho hv hf _ ih =>
    obtain ⟨c, hc, hcv⟩ := hs p o ho
    refine .read (o := o) ?_ hv (ih (fun x hx => hu x (.later hx)))
    show (t.conf p).map Conf.values = some o
    rw [hu p .here c hc, ← hcv]
    rfl

/-! ## C113 -/

/-- C113: whatever was done, and whatever of it raised, an object has the configuration of its item. -/
theorem C113_objects [BEq V] (w : World V) (ops : List (GOp V)) (s : GS V)
    (h : AnyHistory w ops s) (q : String) (o : Dict String V) (ho : s.obj q = some o) : ∃ c, s.conf q = some c ∧ c.values = o :=
  (anyHistory_basic h).sync q o ho

/-- C113: after whatever was done, and whatever of it raised, refreshing all items that are loaded, in any order, and each without an
exception, brings every item up to date, those that are loaded meanwhile included, unless its file reads the item itself. -/
theorem C113_refresh_all [BEq V] (he : EqIsSame V) (w : World V) (hv : VisitsAll w) (ops : List (GOp V)) (s s' : GS V)
    (h : AnyHistory w ops s) (n : Nat) (items : List String) (hall : ∀ q c, s.conf q = some c → q ∈ items)
    (hr : GM.each (GM.refresh w n) items s = (.ok (), s')) (q : String) (hn : ¬ ReadsItself w q) (c : Conf V)
    (hc : s'.conf q = some c) : UpToDate w s' q c := by
  have hb := anyHistory_basic h
  have hi : Inv w (fun x => ReadsItself w x ∨ x ∈ items) s :=
    ⟨hb.sync, hb.has, fun q c hc hq => absurd (.inr (hall q c hc)) hq⟩
  exact (each_spec (refresh_spec he hv n) items _ (fun _ h => h) s hi () s' hr).upToDate hc hn

/-- C113: refreshing one item, without an exception, brings this one up to date, whatever was done before. -/
theorem C113_refresh_one [BEq V] (he : EqIsSame V) (w : World V) (hv : VisitsAll w) (ops : List (GOp V)) (s s' : GS V)
    (h : AnyHistory w ops s) (n : Nat) (p : String) (hn : ¬ ReadsItself w p) (hr : GM.refresh w n p s = (.ok (), s'))
    (c : Conf V) (hc : s'.conf p = some c) : UpToDate w s' p c := by
  have hb := anyHistory_basic h
  have hi : Inv w (fun x => (x ≠ p) ∨ x = p) s :=
    ⟨hb.sync, hb.has, fun q c _ hq => absurd (Decidable.em (q = p)).symm hq⟩
  exact (refresh_spec he hv n p (fun x => x ≠ p) (fun x hx he => hn (he ▸ hx)) s hi () s' hr).upToDate hc (fun h => h rfl)

/-- C113: as long as nothing has raised everything is up to date (C28); whatever is done then, and whatever of it raises, the items that
do not depend on one that was changed keep their configs and are still up to date. -/
theorem C113_others [BEq V] (he : EqIsSame V) (w : World V) (hv : VisitsAll w)
    (ops ops' : List (GOp V)) (s t : GS V) (h : History w ops s) (h' : Past w s ops' t) (x : String) (hp : OnlyPersistent ops x) (hn : ¬ ReadsItself w x)
    (hx : ∀ o ∈ ops', ∀ q, changedItem o = some q → ¬ Reached (DependsOn w (ops ++ ops')) q x) (c : Conf V)
    (hc : s.conf x = some c) : t.conf x = some c ∧ UpToDate w t x c := by
  have hi := history_inv he hv h
  have hpast : Past w GS.new ops s := by
    clear hi hc hx hp h'
    induction h with
    | start => exact .nil
    | @op ops s o n s' _ ho ih =>
      have happ : ∀ (a b : GS V) ops, Past w a ops b → GM.op w n o b = (.ok (), s') → Past w a (ops ++ [o]) s' := by
        intro a b ops hab hb
        induction hab with
        | nil => refine .step (n := n) ?_; rw [hb]; exact .nil
        | step _ ih => exact .step (ih hb)
      exact happ _ _ _ ih ho
  have hu : ∀ y, (∀ o ∈ ops', ∀ q, changedItem o = some q → ¬ Reached (DependsOn w (ops ++ ops')) q y) → Untouched w y s t :=
    fun y hy => C102_only_dependents w hv ops ops' s t hpast h' y hy
  obtain ⟨d, tr, a⟩ := hi.settled x c hc (fun hn' => hn' ⟨hp, hn⟩)
  refine ⟨(hu x hx).config c hc, d, tr.elsewhere hi.sync ?_, fun k v hk => (a k v hk).imp id (fun hn => ⟨hn, ?_⟩)⟩
  · intro p hr c hc
    exact (hu p (fun o ho q hq hreach => hx o ho q hq (hreach.snoc (.inl hr)))).config c hc
  · obtain ⟨d', hd', hk'⟩ := hi.has x c hc
    refine ⟨d', hd', ?_⟩
    cases hdk : d'.get? k with
    | none => rfl
    | some y => exact absurd hn (hk' k (by rw [hdk]; simp))

/-- C113: an update with a name that is reserved is a `TypeError`, and changes no config and no object. -/
theorem C113_reserved [BEq V] (w : World V) (n : Nat) (q : String) (d : Option (Dict String V)) (persist : Bool) (kw : Dict String V)
    (s s1 : GS V) (c : Conf V) (hc : GM.confOf (GM.evalFile w n q) q s = (.ok c, s1))
    (hw : CMM.determineWouldUpdate c d kw = .ok true) (hr : Conf.clash Conf.updateReserved kw = true) :
    GM.op w n (.update q d persist kw) s = (.error (.err .typeError), s1) := by
  show GM.update w n q d persist kw s = _
  unfold GM.update
  rw [M.bind_ok hc, hw, M.bind_ok (show GM.ofExcept (.ok true) s1 = (.ok true, s1) from rfl)]
  simp only [if_true, hr]
  rfl

/-- `m.b` and `m.c` read `x` of `m.a`; the file of `m.b` raises if it is 7. -/
def demoRaising : World Nat where
  files q :=
    if q = "m.a" then .done (Dict.ofList [("x", 1)])
    else if q = "m.b" then .read "m.a" "x" (fun v => if v = 7 then .raise .valueError else .done (Dict.ofList [("y", v)]))
    else if q = "m.c" then .read "m.a" "x" (fun v => .done (Dict.ofList [("z", v)]))
    else .raise .attributeError
  attr _ o a := match o.get? a with
    | some v => .ok v
    | none => .error .attributeError
  order _ xs := xs

/-- The state after the update that raises. -/
def demoRaised : GS Nat := (GM.ops demoRaising 9 [.get "m.b", .get "m.c", .update "m.a" none true (Dict.ofList [("x", 7)])] GS.new).2

/-- C113 fails for the operation itself: the update of `m.a` raises because of `m.b`, and `m.c` is not refreshed; doing it again returns,
and `m.c` is still not up to date, although its file has no trouble, until it is refreshed itself. -/
theorem C113_again_violated :
    (match (GM.ops demoRaising 9 [.get "m.b", .get "m.c", .update "m.a" none true (Dict.ofList [("x", 7)])] GS.new).1 with
      | .error (.err .valueError) => true
      | _ => false) = true ∧
    configured demoRaised "m.a" "x" = some 7 ∧ configured demoRaised "m.c" "z" = some 1 ∧
    (match GM.op demoRaising 9 (.update "m.a" none true (Dict.ofList [("x", 7)])) demoRaised with
      | (.ok (), s) => configured s "m.c" "z" == some 1
      | _ => false) = true ∧
    (match GM.op demoRaising 9 (.refresh "m.c") demoRaised with
      | (.ok (), s) => configured s "m.c" "z" == some 7
      | _ => false) = true := by
  refine ⟨?_, ?_, ?_, ?_, ?_⟩ <;> decide +kernel

theorem demoRaising_reads {q p : String} (h : Reads (demoRaising.files q) p) : p = "m.a" ∧ q ≠ "m.a" := by
  unfold demoRaising at h
  simp only at h
  split at h
  · cases h
  · rename_i h1
    refine ⟨?_, h1⟩
    split at h
    · cases h with
      | here => rfl
      | later h =>
        dsimp only at h
        split at h <;> cases h
    · split at h
      · cases h with
        | here => rfl
        | later h => cases h
      · cases h

theorem demoRaising_others (q : String) : ¬ ReadsItself demoRaising q := fun h => (demoRaising_reads h).2 (demoRaising_reads h).1

/-- Non-vacuity of `C113_others`: an update of `m.b` leaves `m.c` alone. -/
example : ∃ s, History demoRaising [.get "m.b", .get "m.c"] s ∧ (∃ c, s.conf "m.c" = some c) ∧
    ¬ Reached (DependsOn demoRaising ([.get "m.b", .get "m.c"] ++ [.update "m.b" none true (Dict.ofList [("y", 5)])])) "m.b" "m.c" := by
  refine ⟨_, (History.start.next 9 (.get "m.b") ?_).next 9 (.get "m.c") ?_, ?_, ?_⟩
  · decide +kernel
  · decide +kernel
  · exact Option.isSome_iff_exists.1 (by decide +kernel)
  · intro h
    generalize hb : "m.b" = b, hc : "m.c" = c at h
    cases h with
    | self => exact absurd (hb.trans hc.symm) (by decide)
    | next h _ =>
      subst hb
      rcases h with h | h
      · exact absurd (demoRaising_reads h).1 (by decide)
      · simp at h

theorem returned_run {m : GM Nat Unit} {s : GS Nat} (h : (match (m s).1 with | .ok _ => true | .error _ => false) = true) :
    m s = (.ok (), (m s).2) := by
  rcases hm : m s with ⟨_ | _, s'⟩
  · rw [hm] at h; cases h
  · rfl

/-- Non-vacuity of C113: a history in which an operation raises, after which all items can be refreshed again. -/
example : EqIsSame Nat ∧ (∀ q, ¬ ReadsItself demoRaising q) ∧ VisitsAll demoRaising ∧
    ∃ ops s s', AnyHistory demoRaising ops s ∧ (∃ o s0, AnyHistory demoRaising o s0 ∧ configured s0 "m.a" "x" = some 7 ∧
      configured s0 "m.c" "z" = some 1) ∧
      GM.each (GM.refresh demoRaising 9) ["m.b", "m.c", "m.a"] s = (.ok (), s') ∧ configured s' "m.c" "z" = some 3 := by
  refine ⟨fun a b h => by simpa using h, demoRaising_others, fun s xs x => Iff.rfl, _, _, _,
    .op (.update "m.a" none true (Dict.ofList [("x", 3)])) 9 (.op (.update "m.a" none true (Dict.ofList [("x", 7)])) 9
      (.op (.get "m.c") 9 (.op (.get "m.b") 9 .start))),
    ⟨_, _, .op (.update "m.a" none true (Dict.ofList [("x", 7)])) 9 (.op (.get "m.c") 9 (.op (.get "m.b") 9 .start)), ?_, ?_⟩,
    returned_run ?_, ?_⟩ <;> decide +kernel

end Verif.Props
