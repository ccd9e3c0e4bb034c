import Verif.Props.CascadeRaise

/-
Property theorems about updates in projects whose config files read other items: C98 (an update lasts until it is replaced) and C101
(only the last word about each key counts).
-/

namespace Verif.Props
open Verif.Py Verif.Model

variable {V : Type}

/-! ## Specification -/

/-- What an update says about a key. -/
def toldOf (d : Option (Dict String V)) (kw : Dict String V) (k : String) : Option V :=
  (kw.get? k).or (d.bind (fun d => d.get? k))

/-- Further operations, each of which returned or raised. -/
inductive Onwards [BEq V] (w : World V) (s : GS V) : List (GOp V) → GS V → Prop where
  | start : Onwards w s [] s
  | op {ops t} (o : GOp V) (n : Nat) : Onwards w s ops t → Onwards w s (ops ++ [o]) (GM.op w n o t).2

/-- The operation does not reset `q` and does not give the key `k` of `q` another value than `v`. -/
def LeavesValue (q k : String) (v : V) : GOp V → Prop
  | .update p d _ kw => p = q → ∀ x, toldOf d kw k = some x → x = v
  | .reset p => p ≠ q
  | _ => True

/-- The file assigns the same keys in every case. -/
def FixedKeys (prog : FileProg V) : Prop := ∀ d d', Ends prog d → Ends prog d' → ∀ k, d.get? k = none ↔ d'.get? k = none

/-- The attributes of objects do not depend on the order of the keys of the configuration. -/
def ByValue (w : World V) : Prop := ∀ p o o' a, (∀ k, o.get? k = o'.get? k) → w.attr p o a = w.attr p o' a

/-- No item depends on itself. -/
def NoCircles (w : World V) (rank : String → Nat) : Prop := ∀ q p, Reads (w.files q) p → rank p < rank q

/-- The last value that was given to the key `k` of `q`. -/
def lastTold (ops : List (GOp V)) (q k : String) : Option V :=
  ops.foldl (fun acc o => match o with
    | .update p d _ kw => if p = q then (toldOf d kw k).or acc else acc
    | _ => acc) none

/-- A history of operations that all returned, where every update was persistent, was about an item that was loaded, and changed a value. -/
inductive Effective [BEq V] (w : World V) : List (GOp V) → GS V → Prop where
  | start : Effective w [] GS.new
  | get {ops s q n s'} : Effective w ops s → GM.op w n (.get q) s = (.ok (), s') → Effective w (ops ++ [.get q]) s'
  | refresh {ops s q n s'} : Effective w ops s → GM.op w n (.refresh q) s = (.ok (), s') → Effective w (ops ++ [.refresh q]) s'
  | used {ops s d o n s'} : Effective w ops s → GM.op w n (.used d o) s = (.ok (), s') → Effective w (ops ++ [.used d o]) s'
  | update {ops s q d kw n s' c} : Effective w ops s → s.conf q = some c → CMM.determineWouldUpdate c d kw = .ok true →
      GM.op w n (.update q d true kw) s = (.ok (), s') → Effective w (ops ++ [.update q d true kw]) s'

/-! ## Lemmas -/

/-- How the config of `q` can come to be by loading and refreshing. -/
inductive Evolves (w : World V) (q : String) (x : Option (Conf V)) : Option (Conf V) → Prop where
  | same : Evolves w q x x
  | load {d} : Evolves w q x none → Ends (w.files q) d → Evolves w q x (some (Conf.ofFile (.item []) d))
  | refresh {c d c' u} : Evolves w q x (some c) → Ends (w.files q) d → c.refresh d = .ok (c', u) → Evolves w q x (some c')

theorem Evolves.trans {w : World V} {q : String} {x y z : Option (Conf V)} (h : Evolves w q x y) (h' : Evolves w q y z) : Evolves w q x z := by
  induction h' with
  | same => exact h
  | load _ hd ih => exact .load ih hd
  | refresh _ hd hr ih => exact .refresh ih hd hr

/-- The same for all items. -/
def EvolvesAll (w : World V) (s s' : GS V) : Prop := ∀ q, Evolves w q (s.conf q) (s'.conf q)

theorem EvolvesAll.refl {w : World V} (s : GS V) : EvolvesAll w s s := fun _ => .same
theorem EvolvesAll.trans {w : World V} {a b c : GS V} (h : EvolvesAll w a b) (h' : EvolvesAll w b c) : EvolvesAll w a c :=
  fun q => (h q).trans (h' q)
theorem EvolvesAll.ofEq {w : World V} {s s' : GS V} (h : s'.conf = s.conf) : EvolvesAll w s s' := fun q => by rw [h]; exact .same

/-- A computation that only loads and refreshes. -/
def KeepsEv {α : Type} (w : World V) (m : GM V α) : Prop := ∀ s, Basic w s → Basic w (m s).2 ∧ EvolvesAll w s (m s).2

theorem KeepsEv.bind {α β : Type} {w : World V} {m : GM V α} {f : α → GM V β} (hm : KeepsEv w m) (hf : ∀ a, KeepsEv w (f a)) :
    KeepsEv w (m >>= f) := by
  intro s hi
  obtain ⟨h1, h2⟩ := hm s hi
  rw [M.bind_run]
  cases hr : m s with
  | mk res s1 =>
    rw [hr] at h1 h2
    cases res with
    | error e => exact ⟨h1, h2⟩
    | ok a =>
      obtain ⟨h3, h4⟩ := hf a s1 h1
      exact ⟨h3, h2.trans h4⟩

theorem KeepsEv.same {α : Type} {w : World V} {m : GM V α} (h : ∀ s, (m s).2 = s) : KeepsEv w m :=
  fun s hi => by rw [h]; exact ⟨hi, .refl s⟩

theorem runFile_ev {w : World V} {get : String → GM V (Dict String V)} {q : String} (hget : ∀ p, KeepsEv w (get p)) (prog : FileProg V) :
    KeepsEv w (GM.runFile w get q prog) := by
  induction prog with
  | done d => exact .same (fun _ => rfl)
  | raise e => exact .same (fun _ => rfl)
  | read p a next ih =>
    unfold GM.runFile
    refine .bind (fun s hi => ⟨hi.addForced q p, .ofEq (addForced_conf s q p)⟩) (fun _ => .bind (hget p) (fun o => ?_))
    split
    · exact .same (fun _ => rfl)
    · exact ih _

theorem confOf_ev {w : World V} {q : String} {run : GM V (Dict String V)} (hrun : KeepsEv w run)
    (hends : ∀ s, Basic w s → ∀ d, (run s).1 = .ok d → Ends (w.files q) d)
    (hb : ∀ s, Basic w s → Basic w (GM.confOf run q s).2)
    (hself : ∀ s d s', s.conf q = none → s.obj q = none → run s = (.ok d, s') → s'.conf q = none ∧ s'.obj q = none) :
    KeepsEv w (GM.confOf run q) := by
  intro s hi
  refine ⟨hb s hi, ?_⟩
  unfold GM.confOf
  rw [M.bind_ok (M.get_run s)]
  cases hc : s.conf q with
  | some c0 => exact .refl s
  | none =>
    dsimp only
    obtain ⟨_, e1⟩ := hrun s hi
    have ends := hends s hi
    cases hr : run s with
    | mk res s1 =>
      rw [hr] at e1 ends
      cases res with
      | error e => rw [M.bind_error hr]; exact e1
      | ok d =>
        rw [M.bind_ok hr, M.bind_ok (M.modify_run _ s1)]
        have ho : s.obj q = none := by
          cases ho : s.obj q with
          | none => rfl
          | some o =>
            obtain ⟨c, hc', _⟩ := hi.sync q o ho
            rw [hc] at hc'; cases hc'
        have hc1 := (hself s d s1 hc ho hr).1
        intro p
        by_cases hpq : p = q
        · subst hpq
          show Evolves w p _ (setAt s1.conf p _ p)
          rw [setAt_same]
          have := e1 p
          rw [hc1] at this
          exact .load this (ends d rfl)
        · show Evolves w p _ (setAt s1.conf q _ p)
          rw [setAt_ne _ _ hpq]
          exact e1 p

theorem getItem_ev (w : World V) (n : Nat) : ∀ q, KeepsEv w (GM.getItem w n q) := by
  induction n with
  | zero => exact fun q => .same (fun _ => rfl)
  | succ n ih =>
    intro q s hi
    refine ⟨getItem_basic w (n + 1) q s hi, ?_⟩
    unfold GM.getItem
    rw [M.bind_ok (M.get_run s)]
    cases ho : s.obj q with
    | some o0 => exact .refl s
    | none =>
      dsimp only
      have hbas := runFile_basic (q := q) (getItem_basic w n) (w.files q)
      obtain ⟨_, e1⟩ := confOf_ev (runFile_ev ih (w.files q)) (fun s hi => (hbas s hi).2)
        (fun s hi => (confOf_basic hbas (fun _ _ _ h1 h2 h3 => runFile_not_itself h1 h2 h3) s hi).1)
        (fun _ _ _ h1 h2 h3 => runFile_not_itself h1 h2 h3) s hi
      cases hg : GM.confOf (GM.runFile w (GM.getItem w n) q (w.files q)) q s with
      | mk res s1 =>
        rw [hg] at e1
        cases res with
        | error e => rw [M.bind_error hg]; exact e1
        | ok c =>
          rw [M.bind_ok hg, M.bind_ok (M.modify_run _ s1)]
          exact e1.trans (.ofEq rfl)

theorem evalFile_ev (w : World V) (n : Nat) (q : String) : KeepsEv w (GM.evalFile w n q) := runFile_ev (getItem_ev w n) (w.files q)

theorem conf_ev (w : World V) (n : Nat) (q : String) : KeepsEv w (GM.confOf (GM.evalFile w n q) q) :=
  confOf_ev (evalFile_ev w n q) (fun s hi => (evalFile_basic w n q s hi).2) (fun s hi => (conf_basic w n q s hi).1)
    (fun _ _ _ h1 h2 h3 => runFile_not_itself h1 h2 h3)

theorem each_ev {w : World V} {refresh : String → GM V Unit} (hr : ∀ q, KeepsEv w (refresh q)) (xs : List String) :
    KeepsEv w (GM.each refresh xs) := by
  induction xs with
  | nil => exact .same (fun _ => rfl)
  | cons x xs ih => exact .bind (hr x) (fun _ => ih)

theorem loop_ev {w : World V} {refresh : String → GM V Unit} (hr : ∀ q, KeepsEv w (refresh q)) (p : String) (n : Nat) :
    ∀ todo done, KeepsEv w (GM.dependentsLoop w refresh p n todo done) := by
  induction n with
  | zero =>
    intro todo done
    unfold GM.dependentsLoop
    split
    · exact .same (fun _ => rfl)
    · exact .same (fun _ => rfl)
  | succ n ih =>
    intro todo done
    unfold GM.dependentsLoop
    split
    · exact .same (fun _ => rfl)
    · refine .bind (.same (fun _ => rfl)) (fun s0 => .bind (each_ev hr _) (fun _ => .bind (.same (fun _ => rfl)) (fun s1 => ?_)))
      dsimp only
      split
      · exact .same (fun _ => rfl)
      · exact ih _ _

/-- After the config of `q` was replaced by `c'`. -/
theorem apply_ev {w : World V} {refresh : String → GM V Unit} (hr : ∀ q, KeepsEv w (refresh q)) (n : Nat) (q : String)
    (c' : Conf V) (announced : Dict String V) (s : GS V) (hi : Basic w s) (hk : HasKeys (w.files q) c') :
    EvolvesAll w { s with conf := setAt s.conf q (some c') }
      (GM.applyAndRefresh w refresh n q c'.values announced { s with conf := setAt s.conf q (some c') }).2 := by
  have has : ∀ p c, setAt s.conf q (some c') p = some c → HasKeys (w.files p) c := by
    intro p c hp
    by_cases hpq : p = q
    · subst hpq
      simp only [setAt_same, Option.some.injEq] at hp
      subst hp
      exact hk
    · rw [setAt_ne _ _ hpq] at hp
      exact hi.has p c hp
  unfold GM.applyAndRefresh
  rw [M.bind_ok (M.get_run _)]
  cases ho : s.obj q with
  | none => simp only [ho]; exact .refl _
  | some o =>
    simp only [ho]
    rw [M.bind_ok (M.modify_run _ _)]
    have hb : Basic w (⟨setAt s.conf q (some c'), setAt s.obj q (some c'.values), s.forced⟩ : GS V) := by
      refine .mk' ?_ has
      intro p o hp
      have hp : setAt s.obj q (some c'.values) p = some o := hp
      by_cases hpq : p = q
      · subst hpq
        simp only [setAt_same, Option.some.injEq] at hp
        exact ⟨c', setAt_same _ _ _, hp⟩
      · rw [setAt_ne _ _ hpq] at hp
        obtain ⟨c, hc, hcv⟩ := hi.sync p o hp
        exact ⟨c, by rw [← hc]; exact setAt_ne _ _ hpq, hcv⟩
    split
    · exact .ofEq rfl
    · unfold GM.refreshDependents
      rw [M.bind_ok (M.get_run _)]
      exact EvolvesAll.trans (.ofEq rfl) (loop_ev hr q n _ _ _ hb).2

/-- Replacing the config of `q` as refreshing does. -/
theorem EvolvesAll.replace {w : World V} {s : GS V} {q : String} {c' : Conf V} (h : Evolves w q (s.conf q) (some c')) :
    EvolvesAll w s { s with conf := setAt s.conf q (some c') } := by
  intro p
  by_cases hpq : p = q
  · subst hpq
    show Evolves w p _ (setAt s.conf p _ p)
    rw [setAt_same]
    exact h
  · show Evolves w p _ (setAt s.conf q _ p)
    rw [setAt_ne _ _ hpq]
    exact .same

theorem refresh_ev [BEq V] (w : World V) (n : Nat) : ∀ q, KeepsEv w (GM.refresh w n q) := by
  induction n with
  | zero => exact fun q => .same (fun _ => rfl)
  | succ n ih =>
    intro q s hi
    refine ⟨refresh_basic w (n + 1) q s hi, ?_⟩
    unfold GM.refresh
    obtain ⟨i1, c1⟩ := conf_basic w n q s hi
    have e1 := (conf_ev w n q s hi).2
    cases h1 : GM.confOf (GM.evalFile w n q) q s with
    | mk res s1 =>
      rw [h1] at i1 c1 e1
      cases res with
      | error e => rw [M.bind_error h1]; exact e1
      | ok c =>
        rw [M.bind_ok h1]
        have c1 := c1 c rfl
        have k1 := i1.has q c c1
        obtain ⟨i2, _⟩ := evalFile_basic w n q s1 i1
        have e2 := (evalFile_ev w n q s1 i1).2
        cases h2 : GM.evalFile w n q s1 with
        | mk res s2 =>
          rw [h2] at i2 e2
          cases res with
          | error e => rw [M.bind_error h2]; exact e1.trans e2
          | ok d =>
            rw [M.bind_ok h2]
            have g2 := (evalFile_spec w n q _ s1 i1 d s2 h2).1
            split
            · exact e1.trans e2
            · obtain ⟨i3, ends⟩ := evalFile_basic w n q s2 i2
              have e3 := (evalFile_ev w n q s2 i2).2
              cases h3 : GM.evalFile w n q s2 with
              | mk res s3 =>
                rw [h3] at i3 e3 ends
                cases res with
                | error e => rw [M.bind_error h3]; exact e1.trans (e2.trans e3)
                | ok d3 =>
                  rw [M.bind_ok h3]
                  have g3 := (evalFile_spec w n q _ s2 i2 d3 s3 h3).1
                  have c3 := g3.conf _ _ (g2.conf _ _ c1)
                  cases hr : c.refresh d3 with
                  | error e => exact e1.trans (e2.trans e3)
                  | ok r =>
                    obtain ⟨c', ups⟩ := r
                    dsimp only
                    rw [M.bind_ok (M.modify_run _ s3)]
                    refine e1.trans (e2.trans (e3.trans (EvolvesAll.trans (.replace (q := q) (c' := c') ?_)
                      (apply_ev ih n q c' _ s3 i3 (k1.update (fun k hk => ?_))))))
                    · rw [c3]
                      exact .refresh .same (ends d3 rfl) hr
                    · rw [(refresh_values hr).1]
                      exact get?_update_ne_none _ _ k hk

/-- Updates: other items only load and refresh; the item itself does, or is updated in between. -/
theorem update_ev [BEq V] (w : World V) (n : Nat) (q : String) (d : Option (Dict String V)) (persist : Bool) (kw : Dict String V)
    (s : GS V) (hi : Basic w s) :
    (∀ p, p ≠ q → Evolves w p (s.conf p) ((GM.update w n q d persist kw s).2.conf p)) ∧
    (Evolves w q (s.conf q) ((GM.update w n q d persist kw s).2.conf q) ∨
      ∃ c, Evolves w q (s.conf q) (some c) ∧
        Evolves w q (some (c.update d persist kw)) ((GM.update w n q d persist kw s).2.conf q)) ∧
    (∀ c, s.conf q = some c → CMM.determineWouldUpdate c d kw = .ok true → Conf.clash Conf.updateReserved kw = false →
      Evolves w q (some (c.update d persist kw)) ((GM.update w n q d persist kw s).2.conf q)) := by
  unfold GM.update
  obtain ⟨i1, c1⟩ := conf_basic w n q s hi
  have e1 := (conf_ev w n q s hi).2
  have hloaded : ∀ c, s.conf q = some c → GM.confOf (GM.evalFile w n q) q s = (.ok c, s) := by
    intro c hc
    unfold GM.confOf
    rw [M.bind_ok (M.get_run s), hc]
    rfl
  cases h1 : GM.confOf (GM.evalFile w n q) q s with
  | mk res s1 =>
    rw [h1] at i1 c1 e1
    cases res with
    | error e =>
      rw [M.bind_error h1]
      refine ⟨fun p _ => e1 p, .inl (e1 q), fun c hc _ _ => ?_⟩
      rw [hloaded c hc] at h1
      cases h1
    | ok c =>
      rw [M.bind_ok h1]
      have c1 := c1 c rfl
      have k1 := i1.has q c c1
      have hce : ∀ c0, s.conf q = some c0 → c0 = c := by
        intro c0 h0
        rw [hloaded c0 h0] at h1
        cases h1
        rfl
      cases hd : CMM.determineWouldUpdate c d kw with
      | error e =>
        refine ⟨fun p _ => e1 p, .inl (e1 q), fun c0 h0 hw _ => ?_⟩
        rw [hce c0 h0, hd] at hw
        cases hw
      | ok would =>
        rw [M.bind_ok (show GM.ofExcept (.ok would) s1 = (.ok would, s1) from rfl)]
        cases would with
        | false =>
          refine ⟨fun p _ => e1 p, .inl (e1 q), fun c0 h0 hw _ => ?_⟩
          rw [hce c0 h0, hd] at hw
          cases hw
        | true =>
          simp only [if_true]
          split
          · next hcl =>
            refine ⟨fun p _ => e1 p, .inl (e1 q), fun c0 h0 _ hcl' => ?_⟩
            rw [hcl] at hcl'
            cases hcl'
          · rw [M.bind_ok (M.modify_run _ s1)]
            have ea := apply_ev (refresh_ev w n) n q (c.update d persist kw) kw s1 i1 (k1.update (fun k hk =>
              get?_update_ne_none _ _ k (get?_update_ne_none _ _ k hk)))
            have eq := ea q
            simp only [setAt_same] at eq
            refine ⟨fun p hp => ?_, .inr ⟨c, by rw [← c1]; exact e1 q, eq⟩, fun c0 h0 _ _ => by rw [hce c0 h0]; exact eq⟩
            have := ea p
            simp only [setAt_ne _ _ hp] at this
            exact (e1 p).trans this

/-- Resets: other items only load and refresh; the item itself does, or starts from its file. -/
theorem reset_ev [BEq V] (w : World V) (n : Nat) (q : String) (s : GS V) (hi : Basic w s) :
    (∀ p, p ≠ q → Evolves w p (s.conf p) ((GM.reset w n q s).2.conf p)) ∧
    (Evolves w q (s.conf q) ((GM.reset w n q s).2.conf q) ∨
      ∃ d, Ends (w.files q) d ∧ Evolves w q (some (Conf.ofFile (.item []) d)) ((GM.reset w n q s).2.conf q)) := by
  unfold GM.reset
  obtain ⟨i1, ends⟩ := evalFile_basic w n q s hi
  have e1 := (evalFile_ev w n q s hi).2
  cases h1 : GM.evalFile w n q s with
  | mk res s1 =>
    rw [h1] at i1 e1 ends
    cases res with
    | error e => rw [M.bind_error h1]; exact ⟨fun p _ => e1 p, .inl (e1 q)⟩
    | ok d =>
      rw [M.bind_ok h1]
      have hj : ∀ (would : Bool) (t : GS V), Basic w t → EvolvesAll w s t →
          (∀ p, p ≠ q → Evolves w p (s.conf p) (((if would = true then (do
              M.modify fun s => { s with conf := setAt s.conf q (some (Conf.ofFile (.item []) d)) }
              GM.applyAndRefresh w (GM.refresh w n) n q d d : GM V Unit) else pure ()) t).2.conf p)) ∧
          (Evolves w q (s.conf q) (((if would = true then (do
              M.modify fun s => { s with conf := setAt s.conf q (some (Conf.ofFile (.item []) d)) }
              GM.applyAndRefresh w (GM.refresh w n) n q d d : GM V Unit) else pure ()) t).2.conf q) ∨
            ∃ d', Ends (w.files q) d' ∧ Evolves w q (some (Conf.ofFile (.item []) d')) (((if would = true then (do
              M.modify fun s => { s with conf := setAt s.conf q (some (Conf.ofFile (.item []) d)) }
              GM.applyAndRefresh w (GM.refresh w n) n q d d : GM V Unit) else pure ()) t).2.conf q)) := by
        intro would t it et
        cases would with
        | false => exact ⟨fun p _ => et p, .inl (et q)⟩
        | true =>
          simp only [if_true]
          rw [M.bind_ok (M.modify_run _ t)]
          have ea := apply_ev (refresh_ev w n) n q (Conf.ofFile (.item []) d) d t it ⟨d, ends d rfl, fun k hk => hk⟩
          refine ⟨fun p hp => ?_, .inr ⟨d, ends d rfl, ?_⟩⟩
          · have := ea p
            simp only [setAt_ne _ _ hp] at this
            exact (et p).trans this
          · have := ea q
            simp only [setAt_same] at this
            exact this
      have hcur : ∀ (e : Stop), KeepsEv w ((match e with
          | .err .keyError => pure none
          | e => M.raise e) : GM V (Option (Conf V))) := by
        intro e
        refine .same (fun s => ?_)
        split <;> rfl
      have ht : KeepsEv w (M.tryCatch (do return some (← GM.confOf (GM.evalFile w n q) q)) (fun e => match e with
          | .err .keyError => pure none
          | e => M.raise e) : GM V (Option (Conf V))) := by
        intro s hi
        obtain ⟨i2, e2⟩ := conf_ev w n q s hi
        unfold M.tryCatch
        cases h2 : GM.confOf (GM.evalFile w n q) q s with
        | mk res s2 =>
          rw [h2] at i2 e2
          cases res with
          | ok c => rw [M.bind_ok h2]; exact ⟨i2, e2⟩
          | error e =>
            rw [M.bind_error h2]
            dsimp only
            split <;> exact ⟨i2, e2⟩
      obtain ⟨i2, e2⟩ := ht s1 i1
      rw [M.bind_run]
      generalize M.tryCatch _ _ s1 = r at i2 e2 ⊢
      obtain ⟨cur, s2⟩ := r
      cases cur with
      | error e => exact ⟨fun p _ => (e1.trans e2) p, .inl ((e1.trans e2) q)⟩
      | ok cur =>
        cases cur with
        | none =>
          dsimp only
          rw [M.bind_ok (show (pure true : GM V Bool) s2 = (.ok true, s2) from rfl)]
          exact hj true s2 i2 (e1.trans e2)
        | some c =>
          dsimp only
          cases hd : CMM.determineWouldUpdate c none d with
          | error e => exact ⟨fun p _ => (e1.trans e2) p, .inl ((e1.trans e2) q)⟩
          | ok would =>
            rw [M.bind_ok (show GM.ofExcept (.ok would) s2 = (.ok would, s2) from rfl)]
            exact hj would s2 i2 (e1.trans e2)

/-! ## C98 -/

theorem toldOf_eq (d : Option (Dict String V)) (kw : Dict String V) (k : String) :
    ((match d with | none => Dict.empty | some e => e).update kw).get? k = toldOf d kw k := by
  rw [Dict.get?_update]
  unfold toldOf
  cases kw.get? k <;> cases d <;> simp

theorem update_get (c : Conf V) (d : Option (Dict String V)) (persist : Bool) (kw : Dict String V) (k : String) :
    (c.update d persist kw).values.get? k = (toldOf d kw k).or (c.values.get? k) := by
  unfold toldOf
  simp only [Conf.update, Dict.get?_update]
  cases kw.get? k <;> cases d <;> simp

theorem update_recorded (c : Conf V) (d : Option (Dict String V)) (persist : Bool) (kw : Dict String V) (k : String) :
    (c.update d persist kw).applied.get? k = if persist then (toldOf d kw k).or (c.applied.get? k) else c.applied.get? k := by
  rw [← toldOf_eq]
  unfold Conf.update
  cases persist
  · rfl
  · simp only [if_true]
    exact Dict.get?_update ..

/-- The key has the value, and the value is on record. -/
def HasWord (k : String) (v : V) (x : Option (Conf V)) : Prop := ∃ c, x = some c ∧ c.applied.get? k = some v ∧ c.values.get? k = some v

theorem Evolves.hasWord {w : World V} {q k : String} {v : V} {x y : Option (Conf V)} (h : Evolves w q x y) (hx : HasWord k v x) :
    HasWord k v y := by
  induction h with
  | same => exact hx
  | load _ _ ih => obtain ⟨c, hc, _⟩ := ih; cases hc
  | refresh _ _ hr ih =>
    obtain ⟨c, hc, ha, _⟩ := ih
    cases hc
    obtain ⟨hv, ha'⟩ := refresh_values hr
    exact ⟨_, rfl, by rw [ha']; exact ha, by rw [hv, Dict.get?_update, Dict.get?_update, ha]; rfl⟩

theorem op_hasWord [BEq V] (w : World V) (n : Nat) (o : GOp V) (q k : String) (v : V) (hl : LeavesValue q k v o) (s : GS V) (hi : Basic w s)
    (hw : HasWord k v (s.conf q)) : HasWord k v ((GM.op w n o s).2.conf q) := by
  cases o with
  | get p => exact ((KeepsEv.bind (getItem_ev w n p) (fun _ => .same (fun _ => rfl)) s hi).2 q).hasWord hw
  | refresh p => exact ((refresh_ev w n p s hi).2 q).hasWord hw
  | used d p =>
    show HasWord k v ((s.addForced d p).conf q)
    rw [addForced_conf]
    exact hw
  | reset p => exact ((reset_ev w n p s hi).1 q (fun h => hl h.symm)).hasWord hw
  | update p d persist kw =>
    obtain ⟨h1, h2, _⟩ := update_ev w n p d persist kw s hi
    by_cases hp : q = p
    · subst hp
      rcases h2 with h2 | ⟨c, h2, h3⟩
      · exact h2.hasWord hw
      · obtain ⟨_, hc, ha, hv⟩ := h2.hasWord hw
        cases hc
        have hk : toldOf d kw k = none ∨ toldOf d kw k = some v := by
          cases ht : toldOf d kw k with
          | none => exact .inl rfl
          | some x => exact .inr (by rw [hl rfl x ht])
        refine h3.hasWord ⟨_, rfl, ?_, ?_⟩
        · rw [update_recorded, ha]
          cases persist <;> rcases hk with hk | hk <;> simp [hk]
        · rw [update_get, hv]
          rcases hk with hk | hk <;> simp [hk]
    · exact (h1 q hp).hasWord hw

theorem op_basic [BEq V] (w : World V) (n : Nat) (o : GOp V) (s : GS V) (hi : Basic w s) : Basic w (GM.op w n o s).2 := by
  cases o with
  | get p => exact (KeepsEv.bind (getItem_ev w n p) (fun _ => .same (fun _ => rfl)) s hi).1
  | refresh p => exact refresh_basic w n p s hi
  | used d p => exact hi.addForced d p
  | reset p => exact reset_basic w n p s hi
  | update p d persist kw => exact update_basic w n p d persist kw s hi

/-- C98 in projects whose files read other items: after any history, an update of an item that changes one of its values gives every key
in it its value, through everything that is done afterwards, to this item or others, whether it returns or raises and whatever is refreshed
by it, but for resets of the item and other values for the key. -/
theorem C98_project_partial [BEq V] (w : World V) (ops more : List (GOp V)) (s s' : GS V) (h : AnyHistory w ops s) (q : String) (c : Conf V)
    (hc : s.conf q = some c) (d : Option (Dict String V)) (kw : Dict String V) (n : Nat)
    (hw : CMM.determineWouldUpdate c d kw = .ok true) (hr : Conf.clash Conf.updateReserved kw = false) (k : String) (v : V)
    (hk : toldOf d kw k = some v) (hm : Onwards w (GM.op w n (.update q d true kw) s).2 more s') (hl : ∀ o ∈ more, LeavesValue q k v o) :
    ∃ c', s'.conf q = some c' ∧ c'.values.get? k = some v ∧ ∀ o, s'.obj q = some o → o.get? k = some v := by
  have hi := anyHistory_basic h
  have key : ∀ more s', Onwards w (GM.op w n (.update q d true kw) s).2 more s' → (∀ o ∈ more, LeavesValue q k v o) →
      Basic w s' ∧ HasWord k v (s'.conf q) := by
    intro more s' hm
    induction hm with
    | start =>
      intro _
      refine ⟨op_basic w n _ s hi, ?_⟩
      refine ((update_ev w n q d true kw s hi).2.2 c hc hw hr).hasWord ⟨_, rfl, ?_, ?_⟩
      · rw [update_recorded, hk]; rfl
      · rw [update_get, hk]; rfl
    | op o n' _ ih =>
      intro hl
      obtain ⟨i1, w1⟩ := ih (fun o ho => hl o (List.mem_append.2 (.inl ho)))
      exact ⟨op_basic w n' o _ i1, op_hasWord w n' o q k v (hl o (by simp)) _ i1 w1⟩
  obtain ⟨i', c', hc', _, hv'⟩ := key more s' hm hl
  refine ⟨c', hc', hv', fun o ho => ?_⟩
  obtain ⟨c2, hc2, ho2⟩ := i'.sync q o ho
  rw [hc'] at hc2
  cases hc2
  rw [← ho2]
  exact hv'

/-- C98 fails for updates that are not persistent: `z` of `m.b` gets 6, and an update of `m.a`, which the file of `m.b` reads for another
key, takes it back to 5, although nobody refreshed `m.b`. -/
theorem C98_project_violated : ∃ s, History demoWorld
      [.get "m.b", .update "m.b" none false (Dict.ofList [("z", 6)])] s ∧ configured s "m.b" "z" = some 6 ∧
    (match GM.op demoWorld 9 (.update "m.a" none true (Dict.ofList [("x", 2)])) s with
      | (.ok (), s') => configured s' "m.b" "z" == some 5
      | _ => false) = true := by
  refine ⟨_, (History.start.next 9 (.get "m.b") ?_).next 9 (.update "m.b" none false (Dict.ofList [("z", 6)])) ?_, ?_, ?_⟩ <;>
    decide +kernel

/-! ## C101 -/

theorem Gives.functional {w : World V} {cur cur' : String → Option (Dict String V)} (hv : ByValue w) {prog : FileProg V} {d d' : Dict String V}
    (h : Gives w cur prog d) (h' : Gives w cur' prog d')
    (hs : ∀ p o o', Reads prog p → cur p = some o → cur' p = some o' → ∀ k, o.get? k = o'.get? k) : d = d' := by
  induction h with
  | done => cases h'; rfl
  | @read p a next o v d ho hv1 _ ih =>
    cases h' with
    | @read _ _ _ o' v' _ ho' hv2 h2 =>
      have := hv p o o' a (hs p o o' .here ho ho')
      rw [hv1, hv2] at this
      cases this
      exact ih h2 (fun p o o' hr => hs p o o' (.later hr))

theorem Gives.reorder {w : World V} {order' : GS V → List String → List String} {cur : String → Option (Dict String V)}
    {prog : FileProg V} {d : Dict String V} (h : Gives { w with order := order' } cur prog d) : Gives w cur prog d := by
  induction h with
  | done => exact .done
  | read ho hv _ ih => exact .read ho hv ih

theorem Gives.ends {w : World V} {cur : String → Option (Dict String V)}
    {prog : FileProg V} {d : Dict String V} (h : Gives w cur prog d) : Ends prog d := by
  induction h with
  | done => exact .done
  | read _ _ _ ih => exact .later ih

/-- Which keys a config has. -/
def KeysAre (prog : FileProg V) (c : Conf V) : Prop :=
  ∃ d, Ends prog d ∧ ∀ k, c.values.get? k = none ↔ (d.get? k = none ∧ c.applied.get? k = none)

theorem Evolves.keysAre {w : World V} {q : String} {x y : Option (Conf V)} (hf : FixedKeys (w.files q)) (h : Evolves w q x y)
    (hx : ∀ c, x = some c → KeysAre (w.files q) c) : ∀ c, y = some c → KeysAre (w.files q) c := by
  induction h with
  | same => exact hx
  | @load d _ hd ih =>
    intro c hc
    cases hc
    exact ⟨d, hd, fun k => by simp [Conf.ofFile]⟩
  | @refresh c d c' u _ hd hr ih =>
    intro c1 hc
    cases hc
    obtain ⟨d0, hd0, hk⟩ := ih c rfl
    obtain ⟨hv, ha⟩ := refresh_values hr
    refine ⟨d, hd, fun k => ?_⟩
    rw [hv, ha, Dict.get?_update, Dict.get?_update]
    have h1 := hk k
    have h2 := hf d0 d hd0 hd k
    cases ha' : c.applied.get? k <;> cases hd' : d.get? k <;> simp_all

theorem KeysAre.update {prog : FileProg V} {c : Conf V} (h : KeysAre prog c) (d : Option (Dict String V)) (kw : Dict String V) :
    KeysAre prog (c.update d true kw) := by
  obtain ⟨d0, hd0, hk⟩ := h
  refine ⟨d0, hd0, fun k => ?_⟩
  rw [update_get, update_recorded]
  have := hk k
  cases toldOf d kw k <;> simp_all

theorem history_basic [BEq V] {w : World V} {ops : List (GOp V)} {s : GS V} (h : History w ops s) : AnyHistory w ops s := by
  induction h with
  | start => exact .start
  | op _ ho ih =>
    rename_i o n s' _
    have := AnyHistory.op o n ih
    rw [ho] at this
    exact this

theorem history_keys [BEq V] {w : World V} {ops : List (GOp V)} {s : GS V} (h : History w ops s) (q : String)
    (hf : FixedKeys (w.files q)) (hp : OnlyPersistent ops q) : ∀ c, s.conf q = some c → KeysAre (w.files q) c := by
  induction h with
  | start => intro c hc; cases hc
  | @op ops s o n s' h ho ih =>
    have ih := ih (fun d p kw hm => hp d p kw (List.mem_append.2 (.inl hm)))
    have hi := anyHistory_basic (history_basic h)
    have hs' : s' = (GM.op w n o s).2 := by rw [ho]
    subst hs'
    cases o with
    | get p => exact Evolves.keysAre hf ((KeepsEv.bind (getItem_ev w n p) (fun _ => .same (fun _ => rfl)) s hi).2 q) ih
    | refresh p => exact Evolves.keysAre hf ((refresh_ev w n p s hi).2 q) ih
    | used d p =>
      show ∀ c, (s.addForced d p).conf q = some c → _
      rw [addForced_conf]
      exact ih
    | reset p =>
      obtain ⟨h1, h2⟩ := reset_ev w n p s hi
      by_cases hqp : q = p
      · subst hqp
        rcases h2 with h2 | ⟨d, hd, h2⟩
        · exact h2.keysAre hf ih
        · refine h2.keysAre hf (fun c hc => ?_)
          cases hc
          exact ⟨d, hd, fun k => by simp [Conf.ofFile]⟩
      · exact (h1 q hqp).keysAre hf ih
    | update p d persist kw =>
      obtain ⟨h1, h2, _⟩ := update_ev w n p d persist kw s hi
      by_cases hqp : q = p
      · subst hqp
        have hper := hp d persist kw (by simp)
        subst hper
        rcases h2 with h2 | ⟨c, h2, h3⟩
        · exact h2.keysAre hf ih
        · refine h3.keysAre hf (fun c' hc' => ?_)
          cases hc'
          exact (h2.keysAre hf ih c rfl).update d kw
      · exact (h1 q hqp).keysAre hf ih

/-- C101: the configuration of a project is determined by its files and the updates on record, whatever the history and whatever the order
in which dependents were refreshed. -/
theorem C101_determined_partial [BEq V] (he : EqIsSame V) (w : World V) (order' : GS V → List String → List String)
    (hv : VisitsAll w) (hv' : VisitsAll { w with order := order' }) (ha : ByValue w)
    (rank : String → Nat) (hc : NoCircles w rank) (hf : ∀ q, FixedKeys (w.files q)) (ops ops' : List (GOp V)) (s s' : GS V)
    (h : History w ops s) (h' : History { w with order := order' } ops' s')
    (hp : ∀ q, OnlyPersistent ops q) (hp' : ∀ q, OnlyPersistent ops' q)
    (hrec : ∀ q c c', s.conf q = some c → s'.conf q = some c' → ∀ k, c.applied.get? k = c'.applied.get? k) :
    ∀ q c c', s.conf q = some c → s'.conf q = some c' → ∀ k, c.values.get? k = c'.values.get? k := by
  have main : ∀ N q c c', rank q < N → s.conf q = some c → s'.conf q = some c' → ∀ k, c.values.get? k = c'.values.get? k := by
    intro N
    induction N with
    | zero => intro q c c' hr; omega
    | succ N ih =>
      intro q c c' hr hq hq' k
      have hself : ¬ ReadsItself w q := fun hs => Nat.lt_irrefl _ (hc q q hs)
      obtain ⟨d, hg, hd⟩ := C28_consistent he w hv ops s h q (hp q) hself c hq
      obtain ⟨d', hg', hd'⟩ := C28_consistent he _ hv' ops' s' h' q (hp' q) hself c' hq'
      have hg2 := hg'.reorder
      have hdd : d = d' := by
        refine hg.functional ha hg2 (fun p o o' hr' ho ho' => ?_)
        obtain ⟨cp, hcp, rfl⟩ := Option.map_eq_some_iff.1 ho
        obtain ⟨cp', hcp', rfl⟩ := Option.map_eq_some_iff.1 ho'
        exact ih p cp cp' (by have := hc q p hr'; omega) hcp hcp'
      subst hdd
      have happ := hrec q c c' hq hq' k
      have ends : Ends (w.files q) d := hg.ends
      have val : ∀ (c : Conf V), KeysAre (w.files q) c →
          (∀ k v, (d.update c.applied).get? k = some v → c.values.get? k = some v ∨
            (c.values.get? k = none ∧ ∃ d', Ends (w.files q) d' ∧ d'.get? k = none)) →
          c.values.get? k = (d.update c.applied).get? k := by
        intro c hk hd
        obtain ⟨d0, hd0, hk⟩ := hk
        have h1 := hk k
        have h2 := hf q d0 d hd0 ends k
        have h3 := hd k
        rw [Dict.get?_update] at h3 ⊢
        cases hx : c.applied.get? k with
        | some v =>
          rcases h3 v (by rw [hx]; rfl) with h3 | h3
          · rw [h3]; rfl
          · rw [h1.1 h3.1 |>.2] at hx; cases hx
        | none =>
          cases hy : d.get? k with
          | some v =>
            rcases h3 v (by rw [hx, hy]; rfl) with h3 | h3
            · rw [h3]; rfl
            · have := h2.1 (h1.1 h3.1).1
              rw [this] at hy; cases hy
          | none => exact h1.2 ⟨h2.2 hy, hx⟩
      rw [val c (history_keys h q (hf q) (hp q) c hq) hd, val c' (history_keys h' q (hf q) (hp' q) c' hq') hd',
        Dict.get?_update, Dict.get?_update, happ]
  exact fun q c c' => main (rank q + 1) q c c' (Nat.lt_succ_self _)

theorem Effective.history [BEq V] {w : World V} {ops : List (GOp V)} {s : GS V} (h : Effective w ops s) :
    History w ops s ∧ ∀ q, OnlyPersistent ops q := by
  induction h with
  | start => exact ⟨.start, fun q d p kw hm => by cases hm⟩
  | get _ ho ih => exact ⟨.op ih.1 ho, fun q d p kw hm => ih.2 q d p kw (by simpa using hm)⟩
  | refresh _ ho ih => exact ⟨.op ih.1 ho, fun q d p kw hm => ih.2 q d p kw (by simpa using hm)⟩
  | used _ ho ih => exact ⟨.op ih.1 ho, fun q d p kw hm => ih.2 q d p kw (by simpa using hm)⟩
  | update _ _ _ ho ih =>
    refine ⟨.op ih.1 ho, fun q d p kw hm => ?_⟩
    rcases List.mem_append.1 hm with hm | hm
    · exact ih.2 q d p kw hm
    · simp only [List.mem_singleton, GOp.update.injEq] at hm
      exact hm.2.2.1

theorem lastTold_snoc (ops : List (GOp V)) (o : GOp V) (q k : String) : lastTold (ops ++ [o]) q k = (match o with
    | .update p d _ kw => if p = q then (toldOf d kw k).or (lastTold ops q k) else lastTold ops q k
    | _ => lastTold ops q k) := by
  unfold lastTold
  rw [List.foldl_append]
  rfl

theorem Evolves.recorded {w : World V} {q : String} {x y : Option (Conf V)} (h : Evolves w q x y) (r : String → Option V)
    (hx : ∀ k, (x.elim none (fun c => c.applied.get? k)) = r k) :
    ∀ k, (y.elim none (fun c => c.applied.get? k)) = r k := by
  induction h with
  | same => exact hx
  | load _ _ ih => intro k; rw [← ih k]; simp [Conf.ofFile]
  | refresh _ _ hr ih =>
    intro k
    rw [← ih k]
    simp [(refresh_values hr).2]

/-- What is on record after updates that all changed something. -/
theorem Effective.recorded [BEq V] {w : World V} {ops : List (GOp V)} {s : GS V} (h : Effective w ops s) (q : String) :
    ∀ k, ((s.conf q).elim none (fun c => c.applied.get? k)) = lastTold ops q k := by
  have hop : ∀ {ops s s' o n}, Effective w ops s → GM.op w n o s = (.ok (), s') → Basic w s ∧ s' = (GM.op w n o s).2 :=
    fun h ho => ⟨anyHistory_basic (history_basic h.history.1), by rw [ho]⟩
  induction h with
  | start => intro k; rfl
  | @get ops s p n s' h ho ih =>
    intro k
    obtain ⟨hi, rfl⟩ := hop h ho
    rw [lastTold_snoc]
    exact ((KeepsEv.bind (getItem_ev w n p) (fun _ => .same (fun _ => rfl)) s hi).2 q).recorded _ ih k
  | @refresh ops s p n s' h ho ih =>
    intro k
    obtain ⟨hi, rfl⟩ := hop h ho
    rw [lastTold_snoc]
    exact ((refresh_ev w n p s hi).2 q).recorded _ ih k
  | @used ops s d p n s' h ho ih =>
    intro k
    obtain ⟨hi, rfl⟩ := hop h ho
    rw [lastTold_snoc]
    show Option.elim ((s.addForced d p).conf q) _ _ = _
    rw [addForced_conf]
    exact ih k
  | @update ops s p d kw n s' c h hc hw ho ih =>
    intro k
    obtain ⟨hi, rfl⟩ := hop h ho
    rw [lastTold_snoc]
    have hr : Conf.clash Conf.updateReserved kw = false := by
      cases hcl : Conf.clash Conf.updateReserved kw with
      | false => rfl
      | true =>
        have hcf : GM.confOf (GM.evalFile w n p) p s = (.ok c, s) := by
          unfold GM.confOf
          rw [M.bind_ok (M.get_run s), hc]
          rfl
        rw [C113_reserved w n p d true kw s s c hcf hw hcl] at ho
        cases ho
    obtain ⟨h1, _, h3⟩ := update_ev w n p d true kw s hi
    dsimp only
    by_cases hqp : p = q
    · subst hqp
      rw [if_pos rfl]
      refine (h3 c hc hw hr).recorded (fun k => (toldOf d kw k).or (lastTold ops p k)) (fun k => ?_) k
      show (c.update d true kw).applied.get? k = _
      rw [update_recorded, ← ih k, hc]
      rfl
    · rw [if_neg hqp]
      exact (h1 q (fun e => hqp e.symm)).recorded _ ih k

/-- C101 in projects whose files read other items, without circles and where each file always assigns the same keys: two histories of
gets, refreshes and persistent updates of any items, in which every update changed something when it was made and the last value given
to each key of each item is the same, leave all items that are loaded in both with the same values, and their objects too, whatever the
order in which the dependents were refreshed. -/
theorem C101_project_partial [BEq V] (he : EqIsSame V) (w : World V) (order' : GS V → List String → List String)
    (hv : VisitsAll w) (hv' : VisitsAll { w with order := order' }) (ha : ByValue w)
    (rank : String → Nat) (hc : NoCircles w rank) (hf : ∀ q, FixedKeys (w.files q)) (ops ops' : List (GOp V)) (s s' : GS V)
    (h : Effective w ops s) (h' : Effective { w with order := order' } ops' s')
    (hl : ∀ q k, lastTold ops q k = lastTold ops' q k) :
    (∀ q c c', s.conf q = some c → s'.conf q = some c' → ∀ k, c.values.get? k = c'.values.get? k) ∧
    (∀ q o o', s.obj q = some o → s'.obj q = some o' → ∀ k, o.get? k = o'.get? k) := by
  have hrec : ∀ q c c', s.conf q = some c → s'.conf q = some c' → ∀ k, c.applied.get? k = c'.applied.get? k := by
    intro q c c' hq hq' k
    have h1 := h.recorded q k
    have h2 := h'.recorded q k
    rw [hq] at h1
    rw [hq'] at h2
    exact h1.trans ((hl q k).trans h2.symm)
  have hval := C101_determined_partial he w order' hv hv' ha rank hc hf ops ops' s s' h.history.1 h'.history.1 h.history.2
    h'.history.2 hrec
  refine ⟨hval, fun q o o' ho ho' => ?_⟩
  obtain ⟨c, hc1, hc2⟩ := C28_objects he w hv ops s h.history.1 q o ho
  obtain ⟨c', hc1', hc2'⟩ := C28_objects he _ hv' ops' s' h'.history.1 q o' ho'
  rw [← hc2, ← hc2']
  exact hval q c c' hc1 hc1'

/-- C101 fails for updates that change nothing when they are made, since they are not put on record: giving `y` of `m.b` the value 2 that
it has because `x` of `m.a` is 2 has no effect later, while giving it this value before does. -/
theorem C101_project_violated : ∃ s s', History demoRaising
      [.get "m.b", .update "m.a" none true (Dict.ofList [("x", 2)]), .update "m.b" none true (Dict.ofList [("y", 2)]),
        .update "m.a" none true (Dict.ofList [("x", 3)])] s ∧
    History demoRaising
      [.get "m.b", .update "m.b" none true (Dict.ofList [("y", 2)]), .update "m.a" none true (Dict.ofList [("x", 2)]),
        .update "m.a" none true (Dict.ofList [("x", 3)])] s' ∧
    configured s "m.a" "x" = some 3 ∧ configured s' "m.a" "x" = some 3 ∧
    configured s "m.b" "y" = some 3 ∧ configured s' "m.b" "y" = some 2 := by
  refine ⟨_, _, (((History.start.next 9 (.get "m.b") ?_).next 9 (.update "m.a" none true (Dict.ofList [("x", 2)])) ?_).next 9
      (.update "m.b" none true (Dict.ofList [("y", 2)])) ?_).next 9 (.update "m.a" none true (Dict.ofList [("x", 3)])) ?_,
    (((History.start.next 9 (.get "m.b") ?_).next 9 (.update "m.b" none true (Dict.ofList [("y", 2)])) ?_).next 9
      (.update "m.a" none true (Dict.ofList [("x", 2)])) ?_).next 9 (.update "m.a" none true (Dict.ofList [("x", 3)])) ?_,
    ?_, ?_, ?_, ?_⟩ <;> decide +kernel

theorem demoRaising_fixed (q : String) : FixedKeys (demoRaising.files q) := by
  have h : ∀ d d', Ends (demoRaising.files q) d → Ends (demoRaising.files q) d' → d.items.map Prod.fst = d'.items.map Prod.fst := by
    intro d d' h h'
    unfold demoRaising at h h'
    simp only at h h'
    split at h
    · next hq =>
      rw [if_pos hq] at h'
      cases h
      cases h'
      rfl
    · next hq =>
      rw [if_neg hq] at h'
      split at h
      · next hb =>
        rw [if_pos hb] at h'
        cases h with
        | later h =>
          cases h' with
          | later h' =>
            dsimp only at h h'
            split at h
            · cases h
            · split at h'
              · cases h'
              · cases h
                cases h'
                rfl
      · next hb =>
        rw [if_neg hb] at h'
        split at h
        · next hc =>
          rw [if_pos hc] at h'
          cases h with
          | later h =>
            cases h' with
            | later h' =>
              cases h
              cases h'
              rfl
        · cases h
  intro d d' hd hd' k
  have hk : d.keys = d'.keys := h d d' hd hd'
  rw [Dict.get?_eq_none_iff, Dict.get?_eq_none_iff, hk]

theorem Effective.nextUpdate {w : World Nat} {ops : List (GOp Nat)} {s : GS Nat} (h : Effective w ops s) (n : Nat) (q : String)
    (kw : Dict String Nat) (hw : (match s.conf q with
      | some c => (match CMM.determineWouldUpdate c none kw with | .ok b => b | .error _ => false)
      | none => false) = true) (hr : (GM.op w n (.update q none true kw) s).1.isOk = true) :
    Effective w (ops ++ [.update q none true kw]) (GM.op w n (.update q none true kw) s).2 := by
  cases hc : s.conf q with
  | none => rw [hc] at hw; cases hw
  | some c =>
    rw [hc] at hw
    dsimp only at hw
    cases hd : CMM.determineWouldUpdate c none kw with
    | error e => rw [hd] at hw; cases hw
    | ok b =>
      rw [hd] at hw
      dsimp only at hw
      subst hw
      refine .update (n := n) h hc hd ?_
      cases ho : GM.op w n (.update q none true kw) s with
      | mk r s' =>
        rw [ho] at hr
        cases r with
        | ok u => rfl
        | error e => cases hr

theorem Effective.nextGet {w : World Nat} {ops : List (GOp Nat)} {s : GS Nat} (h : Effective w ops s) (n : Nat) (q : String)
    (hr : (GM.op w n (.get q) s).1.isOk = true) : Effective w (ops ++ [.get q]) (GM.op w n (.get q) s).2 := by
  refine .get (n := n) h ?_
  cases ho : GM.op w n (.get q) s with
  | mk r s' =>
    rw [ho] at hr
    cases r with
    | ok u => rfl
    | error e => cases hr

/-- Non-vacuity of C101: `m.a` and `m.b` are updated in one order and the other, and `m.c` is got before or after. -/
example : EqIsSame Nat ∧ VisitsAll demoRaising ∧ ByValue demoRaising ∧
    NoCircles demoRaising (fun q => if q = "m.a" then 0 else 1) ∧ (∀ q, FixedKeys (demoRaising.files q)) ∧
    ∃ ops ops' s s', Effective demoRaising ops s ∧ Effective demoRaising ops' s' ∧ ops ≠ ops' ∧
      (∀ q k, lastTold ops q k = lastTold ops' q k) ∧
      configured s "m.b" "y" = some 5 ∧ configured s "m.c" "z" = some 3 ∧ configured s' "m.c" "z" = some 3 := by
  refine ⟨fun a b h => by simpa using h, fun s xs x => Iff.rfl, fun p o o' a h => ?_, fun q p h => ?_, demoRaising_fixed, _, _, _, _,
    (((Effective.start.nextGet 9 "m.b" ?_).nextGet 9 "m.c" ?_).nextUpdate 9 "m.a" (Dict.ofList [("x", 3)]) ?_ ?_).nextUpdate 9
      "m.b" (Dict.ofList [("y", 5)]) ?_ ?_,
    (((Effective.start.nextGet 9 "m.b" ?_).nextUpdate 9 "m.b" (Dict.ofList [("y", 5)]) ?_ ?_).nextUpdate 9
      "m.a" (Dict.ofList [("x", 3)]) ?_ ?_).nextGet 9 "m.c" ?_, ?_, ?_, ?_, ?_, ?_⟩
  · show (match o.get? a with | some v => Except.ok v | none => .error PyErr.attributeError) = _
    rw [h a]
    rfl
  · obtain ⟨rfl, hq⟩ := demoRaising_reads h
    simp [hq]
  iterate 12 decide +kernel
  · simp
  · intro q k
    simp only [List.nil_append, lastTold, List.cons_append, List.foldl_cons, List.foldl_nil]
    by_cases h1 : "m.a" = q
    · subst h1
      simp
    · simp [h1]
  all_goals decide +kernel

/-- Non-vacuity of C98: `y` of `m.b` is 5, whatever happens to `m.a`, even when the refresh of `m.b` raises. -/
example : ∃ s s', AnyHistory demoRaising [.get "m.b"] s ∧
    Onwards demoRaising (GM.op demoRaising 9 (.update "m.b" none true (Dict.ofList [("y", 5)])) s).2
      ([] ++ [.update "m.a" none true (Dict.ofList [("x", 2)])] ++ [.update "m.a" none true (Dict.ofList [("x", 7)])] ++ [.reset "m.a"]) s' ∧
    configured s "m.b" "y" = some 1 ∧ configured s' "m.b" "y" = some 5 ∧ configured s' "m.a" "x" = some 1 := by
  refine ⟨_, _, .op (.get "m.b") 9 .start, .op _ 9 (.op _ 9 (.op _ 9 .start)), ?_, ?_, ?_⟩ <;> decide +kernel

end Verif.Props
