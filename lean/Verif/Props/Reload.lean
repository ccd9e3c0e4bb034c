import Verif.Model.Reload
import Verif.Props.Cascade

/-
C90 (a reloaded manager behaves as a new one).
-/

namespace Verif.Props
open Verif.Py Verif.Model

variable {V : Type}

/-! ## Specification -/

/-- The states are equal but for the records of dependencies. -/
def SameItems (s s' : GS V) : Prop := s.conf = s'.conf ∧ s.obj = s'.obj

/-- The item an operation is about. -/
def GOp.about : GOp V → Option String
  | .get _ => none
  | .update q _ _ _ => some q
  | .refresh q => some q
  | .reset q => some q
  | .used _ _ => none

/-- A project in which no file reads its own item, and iterating over sets visits all elements. -/
def GoodProject (w : World V) : Prop := (∀ q, ¬ ReadsItself w q) ∧ VisitsAll w

/-- The files and classes of all items but `ours` are the same. -/
def SameOthers (ours : String → Bool) (w w' : World V) : Prop :=
  ∀ q, ours q = false → w'.files q = w.files q ∧ w'.attr q = w.attr q

/-- The items whose config may not be what their file gives, after an event: an update without persistence makes an item one of
them, a refresh ends that, and a reload makes all items of other managers ones that read an item that is reloaded. -/
def doubtful (w : World V) (T : String → Prop) : REvent V → String → Prop
  | .op (.update q _ false _) => fun x => T x ∨ x = q
  | .op (.refresh q) => fun x => T x ∧ x ≠ q
  | .op _ => T
  | .reload ours _ => fun x => ours x = false ∧ (T x ∨ ∃ p, ours p = true ∧ Reads (w.files x) p)

/-- A session: operations that all returned, and reloads. -/
inductive RHistory [BEq V] : World V → (String → Prop) → GS V → Prop where
  | start {w} : GoodProject w → RHistory w (fun _ => False) GS.new
  | op {w T s o n s'} : RHistory w T s → REvent.run n w (.op o) s = (.ok (), w, s') →
      RHistory w (doubtful w T (.op o)) s'
  | reload {w T s ours w' n s'} : RHistory w T s → GoodProject w' → SameOthers ours w w' →
      REvent.run n w (.reload ours w') s = (.ok (), w', s') → RHistory w' (doubtful w T (.reload ours w')) s'

/-! ## Lemmas -/

theorem Tracked.kept {w w' : World V} {s : GS V} {ours : String → Bool} {q : String} {prog : FileProg V} {d : Dict String V}
    (h : Tracked w s q prog d) (hw : SameOthers ours w w') (hn : ∀ p, Reads prog p → ours p = false) :
    Tracked w' (s.reload ours) q prog d := by
  induction h with
  | done => exact .done
  | @read p a next o v d ho hv hf _ ih =>
    have hp := hn p .here
    refine .read (o := o) (v := v) ?_ ?_ hf (ih (fun x hx => hn x (.later hx)))
    · simp [GS.reload, hp, ho]
    · rw [(hw p hp).2]; exact hv

theorem Inv.reload {w w' : World V} {ours : String → Bool} {T : String → Prop} {s : GS V} (h : Inv w T s)
    (hw : SameOthers ours w w') : Inv w' (doubtful w T (.reload ours w')) (s.reload ours) := by
  refine ⟨?_, ?_, ?_⟩
  · intro p o ho
    unfold GS.reload at ho ⊢
    simp only at ho ⊢
    split at ho
    · cases ho
    · next hp => simpa [hp] using h.sync p o ho
  · intro q c hc
    unfold GS.reload at hc
    simp only at hc
    split at hc
    · cases hc
    · next hp =>
      rw [(hw q (by simpa using hp)).1]
      exact h.has q c hc
  · intro q c hc hT
    unfold GS.reload at hc
    simp only at hc
    split at hc
    · cases hc
    · next hp =>
      have hp' : ours q = false := by simpa using hp
      have hq : ¬ T q := fun ht => hT ⟨hp', .inl ht⟩
      have hr : ∀ p, Reads (w.files q) p → ours p = false := by
        intro p hr
        cases ho : ours p with
        | false => rfl
        | true => exact absurd ⟨hp', .inr ⟨p, ho, hr⟩⟩ hT
      obtain ⟨d, hd, ha⟩ := h.settled q c hc hq
      refine ⟨d, ?_, ha⟩
      rw [(hw q hp').1]
      exact hd.kept hw hr

theorem rhistory_inv [BEq V] (he : EqIsSame V) {w : World V} {T : String → Prop} {s : GS V} (h : RHistory w T s) :
    GoodProject w ∧ Inv w T s := by
  induction h with
  | start hw => exact ⟨hw, .start _ _⟩
  | reload _ hw' hs hr ih =>
    cases hr
    exact ⟨hw', ih.2.reload hs⟩
  | @op w T s o n s' _ ho ih =>
    obtain ⟨hw, hi⟩ := ih
    obtain ⟨hn, hv⟩ := hw
    refine ⟨⟨hn, hv⟩, ?_⟩
    have hs : ∀ B : String → Prop, ∀ x, ReadsItself w x → B x := fun B x hx => absurd hx (hn x)
    have ho' : GM.op w n o s = (.ok (), s') := by
      simp only [REvent.run, Prod.mk.injEq] at ho
      exact Prod.ext ho.1 ho.2.2
    cases o with
    | get q =>
      obtain ⟨o, s1, h1, h⟩ := of_bind_ok ho'
      cases h
      exact (getItem_spec w n q _ s hi o s' h1).2.1
    | update q d persist kw =>
      cases persist with
      | true => exact update_spec he hv n q d true kw _ (hs _) (fun h => by cases h) s hi () s' ho'
      | false => exact update_spec he hv n q d false kw _ (hs _) (fun _ => .inr rfl) s (hi.mono (fun _ h => .inl h)) () s' ho'
    | refresh q =>
      refine refresh_spec he hv n q _ (hs _) s (hi.mono (fun x h => ?_)) () s' ho'
      by_cases hx : x = q
      · exact .inr hx
      · exact .inl ⟨h, hx⟩
    | reset q => exact reset_spec he hv n q _ (hs _) s hi () s' ho'
    | used d o =>
      cases ho'
      exact hi.addForced d o

/-- `m` does the same whatever the records are. -/
def Blind {α : Type} (m : GM V α) : Prop :=
  ∀ s s', SameItems s s' → (m s).1 = (m s').1 ∧ SameItems (m s).2 (m s').2

namespace Blind
variable {α β : Type}
theorem pure (a : α) : Blind (Pure.pure a : GM V α) := fun _ _ h => ⟨rfl, h⟩
theorem raise (e : Stop) : Blind (M.raise e : GM V α) := fun _ _ h => ⟨rfl, h⟩
theorem modify {f : GS V → GS V} (hf : ∀ s s', SameItems s s' → SameItems (f s) (f s')) :
    Blind (M.modify f : GM V Unit) := fun s s' h => ⟨rfl, hf s s' h⟩
theorem bind {m : GM V α} {f : α → GM V β} (hm : Blind m) (hf : ∀ a, Blind (f a)) : Blind (m >>= f) := by
  intro s s' h
  obtain ⟨h1, h2⟩ := hm s s' h
  rw [M.bind_run, M.bind_run]
  revert h1 h2
  cases m s with
  | mk r t => cases m s' with
    | mk r' t' =>
      intro h1 h2
      cases h1
      cases r with
      | ok a => exact hf a t t' h2
      | error e => exact ⟨rfl, h2⟩
theorem getBind {f : GS V → GM V β} (hf : ∀ s0 s0', SameItems s0 s0' → f s0 = f s0') (hb : ∀ s0, Blind (f s0)) :
    Blind (M.get >>= f) := by
  intro s s' h
  have e : ∀ t, (M.get >>= f) t = f t t := fun _ => rfl
  rw [e, e, hf s s' h]
  exact hb s' s s' h
theorem tryCatch {m : GM V α} {f : Stop → GM V α} (hm : Blind m) (hf : ∀ e, Blind (f e)) : Blind (M.tryCatch m f) := by
  intro s s' h
  obtain ⟨h1, h2⟩ := hm s s' h
  unfold M.tryCatch
  revert h1 h2
  cases m s with
  | mk r t => cases m s' with
    | mk r' t' =>
      intro h1 h2
      cases h1
      cases r with
      | ok a => exact ⟨rfl, h2⟩
      | error e => exact hf e t t' h2
end Blind

section
variable {w : World V}

theorem addForced_sameItems {s s' : GS V} (d o : String) (h : SameItems s s') :
    SameItems (s.addForced d o) (s'.addForced d o) := by
  unfold SameItems
  rw [addForced_conf, addForced_conf, addForced_obj, addForced_obj]
  exact h

theorem runFile_blind {get : String → GM V (Dict String V)} (h : ∀ p, Blind (get p)) (q : String)
    (prog : FileProg V) : Blind (GM.runFile w get q prog) := by
  induction prog with
  | done d => exact .pure d
  | raise e => exact .raise _
  | read p a next ih =>
    unfold GM.runFile
    refine .bind (.modify (fun s s' hs => addForced_sameItems q p hs)) (fun _ => .bind (h p) (fun o => ?_))
    cases w.attr p o a with
    | error e => exact .raise _
    | ok v => exact ih v

theorem confOf_blind {run : GM V (Dict String V)} (h : Blind run) (q : String) : Blind (GM.confOf run q) := by
  refine .getBind (fun s s' hs => by rw [hs.1]) (fun s => ?_)
  cases s.conf q with
  | some c => exact .pure c
  | none =>
    refine .bind h (fun d => .bind (.modify (fun s s' hs => ?_)) (fun _ => .pure _))
    exact ⟨by simp only [hs.1], hs.2⟩

theorem getItem_blind (n : Nat) : ∀ q, Blind (GM.getItem w n q) := by
  induction n with
  | zero => exact fun q => .raise _
  | succ n ih =>
    intro q
    refine .getBind (fun s s' hs => by rw [hs.2]) (fun s => ?_)
    cases s.obj q with
    | some o => exact .pure o
    | none =>
      refine .bind (confOf_blind (runFile_blind ih q _) q) (fun c => .bind (.modify (fun s s' hs => ?_)) (fun _ => .pure _))
      exact ⟨hs.1, by simp only [hs.2]⟩

theorem evalFile_blind (n : Nat) (q : String) : Blind (GM.evalFile w n q) :=
  runFile_blind (getItem_blind n) q _

end

/-- `m` removes no object. -/
def KeepsObj {α : Type} (m : GM V α) : Prop := ∀ s q, s.obj q ≠ none → (m s).2.obj q ≠ none

namespace KeepsObj
variable {α β : Type}
theorem pure (a : α) : KeepsObj (Pure.pure a : GM V α) := fun _ _ h => h
theorem raise (e : Stop) : KeepsObj (M.raise e : GM V α) := fun _ _ h => h
theorem get : KeepsObj (M.get : GM V (GS V)) := fun _ _ h => h
theorem modify {f : GS V → GS V} (hf : ∀ s q, s.obj q ≠ none → (f s).obj q ≠ none) :
    KeepsObj (M.modify f : GM V Unit) := fun s q h => hf s q h
theorem setObj (x : String) (o : Dict String V) :
    KeepsObj (M.modify (fun s => { s with obj := setAt s.obj x (some o) }) : GM V Unit) := by
  refine .modify (fun s q h => ?_)
  show setAt s.obj x (some o) q ≠ none
  unfold setAt
  split
  · simp
  · exact h
theorem bind {m : GM V α} {f : α → GM V β} (hm : KeepsObj m) (hf : ∀ a, KeepsObj (f a)) : KeepsObj (m >>= f) := by
  intro s q h
  have h1 := hm s q h
  rw [M.bind_run]
  revert h1
  cases m s with
  | mk r t =>
    intro h1
    cases r with
    | ok a => exact hf a t q h1
    | error e => exact h1
end KeepsObj

section
variable {w : World V}

theorem runFile_keepsObj {get : String → GM V (Dict String V)} (h : ∀ p, KeepsObj (get p)) (q : String)
    (prog : FileProg V) : KeepsObj (GM.runFile w get q prog) := by
  induction prog with
  | done d => exact .pure d
  | raise e => exact .raise _
  | read p a next ih =>
    unfold GM.runFile
    refine .bind (.modify (fun s q' hs => by rw [addForced_obj]; exact hs)) (fun _ => .bind (h p) (fun o => ?_))
    cases w.attr p o a with
    | error e => exact .raise _
    | ok v => exact ih v

theorem confOf_keepsObj {run : GM V (Dict String V)} (h : KeepsObj run) (q : String) : KeepsObj (GM.confOf run q) := by
  refine .bind .get (fun s => ?_)
  cases s.conf q with
  | some c => exact .pure c
  | none => exact .bind h (fun d => .bind (.modify (fun _ _ hs => hs)) (fun _ => .pure _))

theorem getItem_keepsObj (n : Nat) : ∀ q, KeepsObj (GM.getItem w n q) := by
  induction n with
  | zero => exact fun q => .raise _
  | succ n ih =>
    intro q
    refine .bind .get (fun s => ?_)
    cases s.obj q with
    | some o => exact .pure o
    | none => exact .bind (confOf_keepsObj (runFile_keepsObj ih q _) q) (fun c => .bind (.setObj q _) (fun _ => .pure _))

theorem evalFile_keepsObj (n : Nat) (q : String) : KeepsObj (GM.evalFile w n q) :=
  runFile_keepsObj (getItem_keepsObj n) q _

theorem each_keepsObj {f : String → GM V Unit} (h : ∀ q, KeepsObj (f q)) (xs : List String) :
    KeepsObj (GM.each f xs) := by
  induction xs with
  | nil => exact .pure ()
  | cons x xs ih => exact .bind (h x) (fun _ => ih)

theorem loop_keepsObj {f : String → GM V Unit} (h : ∀ q, KeepsObj (f q)) (p : String) (n : Nat) :
    ∀ todo done, KeepsObj (GM.dependentsLoop w f p n todo done) := by
  induction n with
  | zero =>
    intro todo done
    unfold GM.dependentsLoop
    split
    · exact .pure ()
    · exact .raise _
  | succ n ih =>
    intro todo done
    unfold GM.dependentsLoop
    split
    · exact .pure ()
    · refine .bind .get (fun s => .bind (each_keepsObj h _) (fun _ => .bind .get (fun s1 => ?_)))
      simp only
      split
      · exact .raise _
      · exact ih _ _

theorem apply_keepsObj {f : String → GM V Unit} (h : ∀ q, KeepsObj (f q)) (n : Nat) (q : String)
    (values announced : Dict String V) : KeepsObj (GM.applyAndRefresh w f n q values announced) := by
  refine .bind .get (fun s => ?_)
  cases s.obj q with
  | none => exact .pure ()
  | some o =>
    refine .bind (.setObj q _) (fun _ => ?_)
    split
    · exact .raise _
    · exact .bind .get (fun s1 => loop_keepsObj h q n _ _)

theorem refresh_keepsObj [BEq V] (n : Nat) : ∀ q, KeepsObj (GM.refresh w n q) := by
  induction n with
  | zero => exact fun q => .raise _
  | succ n ih =>
    intro q
    have he := evalFile_keepsObj (w := w) n q
    refine .bind (confOf_keepsObj he q) (fun c => .bind he (fun d => ?_))
    split
    · exact .pure ()
    · refine .bind he (fun d => ?_)
      cases c.refresh d with
      | error e => exact .raise _
      | ok r => exact .bind (.modify (fun _ _ h => h)) (fun _ => apply_keepsObj ih n q _ _)

end

/-- `m` does the same whatever the records are, if `q` has no object in the end. -/
def BlindUnused {α : Type} (q : String) (m : GM V α) : Prop :=
  ∀ s s', SameItems s s' → (m s').2.obj q = none → (m s).1 = (m s').1 ∧ SameItems (m s).2 (m s').2

theorem Blind.unused {α : Type} {m : GM V α} (h : Blind m) (q : String) : BlindUnused q m := fun s s' hs _ => h s s' hs

theorem BlindUnused.bind {α β : Type} {q : String} {m : GM V α} {f : α → GM V β} (hm : Blind m)
    (hf : ∀ a, BlindUnused q (f a)) : BlindUnused q (m >>= f) := by
  intro s s' h hq
  obtain ⟨h1, h2⟩ := hm s s' h
  rw [M.bind_run] at hq
  rw [M.bind_run, M.bind_run]
  revert h1 h2 hq
  cases m s with
  | mk r t => cases m s' with
    | mk r' t' =>
      intro hq h1 h2
      cases h1
      cases r with
      | ok a => exact hf a t t' h2 hq
      | error e => exact ⟨rfl, h2⟩

theorem apply_unused {w : World V} {f : String → GM V Unit} (h : ∀ q, KeepsObj (f q)) (n : Nat) (q : String)
    (values announced : Dict String V) : BlindUnused q (GM.applyAndRefresh w f n q values announced) := by
  intro s s' hs hq
  cases ho : s'.obj q with
  | none =>
    have h1 : ∀ t : GS V, t.obj q = none → GM.applyAndRefresh w f n q values announced t = (.ok (), t) := by
      intro t ht
      unfold GM.applyAndRefresh
      rw [M.bind_ok (M.get_run t), ht]
      rfl
    rw [h1 s' ho, h1 s (by rw [hs.2]; exact ho)]
    exact ⟨rfl, hs⟩
  | some o => exact absurd hq (apply_keepsObj h n q values announced s' q (by rw [ho]; simp))

theorem setConf_blind (q : String) (c : Conf V) :
    Blind (M.modify (fun s => { s with conf := setAt s.conf q (some c) }) : GM V Unit) :=
  .modify (fun _ _ hs => ⟨by simp only [hs.1], hs.2⟩)

theorem ofExcept_blind {α : Type} (x : Except PyErr α) : Blind (GM.ofExcept x : GM V α) := by
  cases x with
  | ok a => exact .pure a
  | error e => exact .raise _

theorem reset_unused [BEq V] {w : World V} (n : Nat) (q : String) : BlindUnused q (GM.reset w n q) := by
  unfold GM.reset
  refine .bind (evalFile_blind n q) (fun d => .bind
    (.tryCatch ((confOf_blind (evalFile_blind n q) q).bind (fun _ => .pure _)) (fun e => ?_)) (fun cur => ?_))
  · split
    · exact .pure _
    · exact .raise _
  · cases cur with
    | none =>
      refine .bind (.pure true) (fun b => ?_)
      dsimp only
      split
      · exact .bind (setConf_blind q _) (fun _ => apply_unused (refresh_keepsObj n) n q _ _)
      · exact (Blind.pure ()).unused q
    | some c =>
      refine .bind (ofExcept_blind _) (fun b => ?_)
      dsimp only
      split
      · exact .bind (setConf_blind q _) (fun _ => apply_unused (refresh_keepsObj n) n q _ _)
      · exact (Blind.pure ()).unused q

/-! ## C90 -/

/-- C90. What can be got from a manager that is reloaded is what can be got from a new one: getting any item gives the same result or
the same exception, and leaves the same configs and objects. -/
theorem C90_get (w : World V) (n : Nat) (q : String) (s : GS V) :
    (GM.getItem w n q (s.reload (fun _ => true))).1 = (GM.getItem w n q GS.new).1 ∧
      SameItems (GM.getItem w n q (s.reload (fun _ => true))).2 (GM.getItem w n q GS.new).2 :=
  getItem_blind n q _ _ ⟨by funext x; simp [GS.reload, GS.new], by funext x; simp [GS.reload, GS.new]⟩

/-- C90. From then on, as long as only the records differ: an operation that does not leave the item it is about in use gives the same in both. -/
theorem C90_unused_partial [BEq V] (w : World V) (n : Nat) (o : GOp V) (s s' : GS V) (hs : SameItems s s')
    (hq : ∀ q, GOp.about o = some q → (GM.op w n o s').2.obj q = none) :
    (GM.op w n o s).1 = (GM.op w n o s').1 ∧ SameItems (GM.op w n o s).2 (GM.op w n o s').2 := by
  cases o with
  | get q => exact (getItem_blind n q).bind (fun _ => .pure ()) s s' hs
  | used d o => exact ⟨rfl, addForced_sameItems d o hs⟩
  | update q d persist kw =>
    refine BlindUnused.bind (q := q) (confOf_blind (evalFile_blind n q) q) (fun c => .bind (ofExcept_blind _) (fun b => ?_))
      s s' hs (hq q rfl)
    split
    · split
      · exact (Blind.raise _).unused q
      · exact .bind (setConf_blind q _) (fun _ => apply_unused (refresh_keepsObj n) n q _ _)
    · exact (Blind.pure ()).unused q
  | refresh q =>
    cases n with
    | zero => exact ⟨rfl, hs⟩
    | succ n =>
      refine BlindUnused.bind (q := q) (confOf_blind (evalFile_blind n q) q) (fun c => .bind (evalFile_blind n q) (fun d => ?_))
        s s' hs (hq q rfl)
      split
      · exact (Blind.pure ()).unused q
      · refine .bind (evalFile_blind n q) (fun d => ?_)
        cases c.refresh d with
        | error e => exact (Blind.raise _).unused q
        | ok r => exact .bind (setConf_blind q _) (fun _ => apply_unused (refresh_keepsObj n) n q _ _)
  | reset q => exact reset_unused n q s s' hs (hq q rfl)

/-- C90. In any session with reloads of any managers after any changes of their files: what is configured for an item is what its
file, as it is now, gives under the present configuration of all items, with its own updates on top.  Exceptions: items
that are `doubtful`, and keys that the file does not assign in every case. -/
theorem C90_consistent [BEq V] (he : EqIsSame V) (w : World V) (T : String → Prop) (s : GS V) (h : RHistory w T s)
    (q : String) (hq : ¬ T q) (c : Conf V) (hc : s.conf q = some c) :
    ∃ d, Gives w (fun p => (s.conf p).map Conf.values) (w.files q) d ∧
      ∀ k v, (d.update c.applied).get? k = some v →
        c.values.get? k = some v ∨
        (c.values.get? k = none ∧ ∃ d', Ends (w.files q) d' ∧ d'.get? k = none) := by
  obtain ⟨_, hi⟩ := rhistory_inv he h
  obtain ⟨d, t, a⟩ := hi.settled q c hc hq
  refine ⟨d, t.gives hi, fun k v hk => (a k v hk).imp id (fun hn => ⟨hn, ?_⟩)⟩
  obtain ⟨d', hd', hk'⟩ := hi.has q c hc
  refine ⟨d', hd', ?_⟩
  cases hdk : d'.get? k with
  | none => rfl
  | some x => exact absurd hn (hk' k (by rw [hdk]; simp))

/-- Projects: `m.b` and, in another manager, `k.b` read `x` of `m.a`. -/
def reloadWorld (x : Nat) (b : Bool) : World Nat where
  files q :=
    if q = "m.a" then .done (Dict.ofList [("x", x)])
    else if q = "m.b" then (if b then .read "m.a" "x" (fun v => .done (Dict.ofList [("y", v + 10)])) else .raise .keyError)
    else if q = "k.b" then .read "m.a" "x" (fun v => .done (Dict.ofList [("y", v + 10)]))
    else .raise .keyError
  attr _ o a := match o.get? a with
    | some v => .ok v
    | none => .error .attributeError
  order _ xs := xs

theorem reloadWorld_good (x : Nat) (b : Bool) : GoodProject (reloadWorld x b) := by
  refine ⟨?_, fun s xs y => Iff.rfl⟩
  suffices h : ∀ q p, Reads ((reloadWorld x b).files q) p → (if p = "m.a" then 0 else 1) < (if q = "m.a" then 0 else 1) from
    fun q hq => Nat.lt_irrefl _ (h q q hq)
  intro q p h
  unfold reloadWorld at h
  simp only at h
  split at h
  · cases h
  · next hq =>
    have : ∀ next : Nat → FileProg Nat, (∀ v y, ¬ Reads (next v) y) → Reads (.read "m.a" "x" next) p →
        (if p = "m.a" then 0 else 1) < (if q = "m.a" then 0 else 1) := by
      intro next hn hr
      cases hr with
      | here => simp [hq]
      | later hr => exact absurd hr (hn _ _)
    split at h
    · split at h
      · exact this _ (fun v y hy => by cases hy) h
      · cases h
    · split at h
      · exact this _ (fun v y hy => by cases hy) h
      · cases h

/-- The items of the manager `m`. -/
def ofM (q : String) : Bool := q = "m.a" || q = "m.b"

theorem reloadWorld_others (x x' : Nat) (b b' : Bool) : SameOthers ofM (reloadWorld x b) (reloadWorld x' b') := by
  intro q hq
  have h1 : q ≠ "m.a" := by rintro rfl; simp [ofM] at hq
  have h2 : q ≠ "m.b" := by rintro rfl; simp [ofM] at hq
  simp [reloadWorld, h1, h2]

theorem RHistory.next {w : World Nat} {T : String → Prop} {s : GS Nat} (h : RHistory w T s) (n : Nat) (o : GOp Nat)
    (hr : (GM.op w n o s).1.isOk = true) : RHistory w (doubtful w T (.op o)) (GM.op w n o s).2 := by
  refine .op (n := n) h ?_
  show ((GM.op w n o s).1, w, (GM.op w n o s).2) = (.ok (), w, (GM.op w n o s).2)
  cases ho : (GM.op w n o s).1 with
  | ok u => rfl
  | error e => rw [ho] at hr; cases hr

/-- The session before: `m.b` is got. -/
def beforeReload : GS Nat := (GM.op (reloadWorld 1 true) 9 (.get "m.b") GS.new).2

/-- The update of `m.a` from 1 to 2, after it was got. -/
def updateA (w : World Nat) (s : GS Nat) : Except Stop Unit × GS Nat :=
  GM.op w 9 (.update "m.a" none true (Dict.ofList [("x", 2)])) (GM.op w 9 (.get "m.a") s).2

/-- C90 fails for updates: `m.b` is used, then removed with its file, and the manager is reloaded.  Updating `m.a` now raises
`KeyError`, after the config has changed.  In a new session it returns. -/
theorem C90_update_violated :
    (match (updateA (reloadWorld 1 false) (beforeReload.reload (fun _ => true))).1 with
      | .error (.err e) => some e
      | _ => none) = some .keyError ∧
    configured (updateA (reloadWorld 1 false) (beforeReload.reload (fun _ => true))).2 "m.a" "x" = some 2 ∧
    (updateA (reloadWorld 1 false) GS.new).1.isOk = true := by
  refine ⟨?_, ?_, ?_⟩ <;> decide +kernel

/-- C90 fails for items of other managers: after `k.b` is got, the file of `m.a` changes and its manager is reloaded, `k.b` keeps what it
read before, although `m.a` is got anew. -/
theorem C90_other_violated : ∃ T s, RHistory (reloadWorld 5 true) T s ∧ T "k.b" ∧
    configured s "m.a" "x" = some 5 ∧ configured s "k.b" "y" = some 11 ∧
    Gives (reloadWorld 5 true) (fun p => (s.conf p).map Conf.values) ((reloadWorld 5 true).files "k.b")
      (Dict.ofList [("y", 15)]) := by
  refine ⟨_, _, (((RHistory.start (reloadWorld_good 1 true)).next 9 (.get "k.b") ?_).reload (n := 9) (ours := ofM)
    (reloadWorld_good 5 true) (reloadWorld_others 1 5 true true) rfl).next 9 (.get "m.a") ?_, ?_, ?_, ?_,
    .read (o := Dict.ofList [("x", 5)]) (v := 5) ?_ ?_ .done⟩
  all_goals first
    | decide +kernel
    | rfl
    | exact ⟨by decide +kernel, .inr ⟨"m.a", by decide +kernel, .here⟩⟩

/-- A refresh of `k.b` brings it up to date: it is not doubtful any more. -/
example : ∃ T s, RHistory (reloadWorld 5 true) T s ∧ ¬ T "k.b" ∧ configured s "k.b" "y" = some 15 := by
  refine ⟨_, _, (((RHistory.start (reloadWorld_good 1 true)).next 9 (.get "k.b") ?_).reload (n := 9) (ours := ofM)
    (reloadWorld_good 5 true) (reloadWorld_others 1 5 true true) rfl).next 9 (.refresh "k.b") ?_, ?_, ?_⟩
  all_goals first
    | decide +kernel
    | exact fun h => h.2 rfl

/-- Operations that leave the item they are about unused exist, also where updates of items in use differ. -/
example : (GM.op (reloadWorld 1 false) 9 (.update "m.a" none true (Dict.ofList [("x", 2)])) GS.new).2.obj "m.a" = none ∧
    configured (GM.op (reloadWorld 1 false) 9 (.update "m.a" none true (Dict.ofList [("x", 2)]))
      (beforeReload.reload (fun _ => true))).2 "m.a" "x" = some 2 ∧
    beforeReload.forced "m.a" = ["m.b"] := by
  refine ⟨?_, ?_, ?_⟩ <;> decide +kernel

end Verif.Props
