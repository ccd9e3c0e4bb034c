import Verif.Model.Cascade
import Verif.Lemmas.Config

/-
C28 (dependents are consistent after an update) and C29 (refreshing dependents ends).
-/

namespace Verif.Props
open Verif.Py Verif.Model

variable {V : Type}

/-! ## Specification -/

/-- The program reads an attribute of `x`, in some branch. -/
inductive Reads : FileProg V → String → Prop where
  | here {p a next} : Reads (.read p a next) p
  | later {p a next v x} : Reads (next v) x → Reads (.read p a next) x

/-- The program can assign exactly `d`, in some branch. -/
inductive Ends : FileProg V → Dict String V → Prop where
  | done {d} : Ends (.done d) d
  | later {p a next v d} : Ends (next v) d → Ends (.read p a next) d

/-- What the file gives when each item has the configuration `current`. -/
inductive Gives (w : World V) (current : String → Option (Dict String V)) : FileProg V → Dict String V → Prop where
  | done {d} : Gives w current (.done d) d
  | read {p a next o v d} : current p = some o → w.attr p o a = .ok v → Gives w current (next v) d →
      Gives w current (.read p a next) d

/-- The file of the item reads an attribute of the item itself, in some branch. -/
def ReadsItself (w : World V) (q : String) : Prop := Reads (w.files q) q

/-- Iterating over a set visits each of its elements. -/
def VisitsAll (w : World V) : Prop := ∀ s xs x, x ∈ xs ↔ x ∈ w.order s xs

/-- Values that compare equal are the same. -/
def EqIsSame (V : Type) [BEq V] : Prop := ∀ a b : V, (a == b) = true → a = b

/-- The start: nothing loaded. -/
def GS.new : GS V := ⟨fun _ => none, fun _ => none, fun _ => []⟩

/-- A history of operations that all returned. -/
inductive History [BEq V] (w : World V) : List (GOp V) → GS V → Prop where
  | start : History w [] GS.new
  | op {ops s o n s'} : History w ops s → GM.op w n o s = (.ok (), s') → History w (ops ++ [o]) s'

/-- `q` was only updated persistently. -/
def OnlyPersistent (ops : List (GOp V)) (q : String) : Prop :=
  ∀ d persist kw, GOp.update q d persist kw ∈ ops → persist = true

/-! ## Lemmas for C28 -/

theorem of_bind_ok {ε σ α β : Type} {m : M ε σ α} {f : α → M ε σ β} {s s' : σ} {b : β}
    (h : (m >>= f) s = (.ok b, s')) : ∃ a s1, m s = (.ok a, s1) ∧ f a s1 = (.ok b, s') := by
  rw [M.bind_run] at h
  cases hm : m s with
  | mk r s1 =>
    rw [hm] at h
    cases r with
    | ok a => exact ⟨a, s1, rfl, h⟩
    | error e => cases h

theorem setAt_same {α : Type} (f : String → α) (x : String) (a : α) : setAt f x a x = a := by simp [setAt]
theorem setAt_ne {α : Type} (f : String → α) {x y : String} (a : α) (h : y ≠ x) : setAt f x a y = f y := by
  simp [setAt, h]

/-- Like `Gives`, from the objects, and every read of another item is on record. -/
inductive Tracked (w : World V) (s : GS V) (q : String) : FileProg V → Dict String V → Prop where
  | done {d} : Tracked w s q (.done d) d
  | read {p a next o v d} : s.obj p = some o → w.attr p o a = .ok v → q ∈ s.forced p ∨ q = p →
      Tracked w s q (next v) d → Tracked w s q (.read p a next) d

/-- The config agrees with what the file gives and the recorded updates. -/
def Agree (c : Conf V) (d : Dict String V) : Prop :=
  ∀ k v, (d.update c.applied).get? k = some v → c.values.get? k = some v ∨ c.values.get? k = none

/-- The config has every key some run of the file gave. -/
def HasKeys (prog : FileProg V) (c : Conf V) : Prop :=
  ∃ d, Ends prog d ∧ ∀ k, d.get? k ≠ none → c.values.get? k ≠ none

/-- The invariant, for all items but those in `B`. -/
structure Inv (w : World V) (B : String → Prop) (s : GS V) : Prop where
  sync : ∀ p o, s.obj p = some o → ∃ c, s.conf p = some c ∧ c.values = o
  has : ∀ q c, s.conf q = some c → HasKeys (w.files q) c
  settled : ∀ q c, s.conf q = some c → ¬ B q → ∃ d, Tracked w s q (w.files q) d ∧ Agree c d

theorem Inv.mono {w : World V} {B B' : String → Prop} {s : GS V} (h : Inv w B s) (hB : ∀ x, B x → B' x) :
    Inv w B' s := ⟨h.sync, h.has, fun q c hc hq => h.settled q c hc (fun hb => hq (hB q hb))⟩

/-- Nothing changed that was there. -/
structure Grows (s s' : GS V) : Prop where
  conf : ∀ p c, s.conf p = some c → s'.conf p = some c
  obj : ∀ p o, s.obj p = some o → s'.obj p = some o
  forced : ∀ p x, x ∈ s.forced p → x ∈ s'.forced p

theorem Grows.refl (s : GS V) : Grows s s := ⟨fun _ _ h => h, fun _ _ h => h, fun _ _ h => h⟩
theorem Grows.trans {a b c : GS V} (h : Grows a b) (h' : Grows b c) : Grows a c :=
  ⟨fun p x hx => h'.conf p x (h.conf p x hx), fun p x hx => h'.obj p x (h.obj p x hx),
    fun p x hx => h'.forced p x (h.forced p x hx)⟩

theorem Tracked.grows {w : World V} {s s' : GS V} {q : String} {prog : FileProg V} {d : Dict String V}
    (h : Tracked w s q prog d) (hg : Grows s s') : Tracked w s' q prog d := by
  induction h with
  | done => exact .done
  | read ho hv hf _ ih => exact .read (hg.obj _ _ ho) hv (hf.imp (hg.forced _ _) id) ih

/-- Reads of `p` that are on record show up in the dependents of `p`. -/
theorem Tracked.setObj {w : World V} {s s' : GS V} {q : String} {prog : FileProg V} {d : Dict String V} {p : String}
    (h : Tracked w s q prog d) (hn : Reads prog p → q ∉ s.forced p ∧ q ≠ p)
    (ho : ∀ x, x ≠ p → s'.obj x = s.obj x) (hf : s'.forced = s.forced) : Tracked w s' q prog d := by
  induction h with
  | done => exact .done
  | @read x a next o v d hx hv hq _ ih =>
    have hne : x ≠ p := by
      rintro rfl
      exact hq.elim (hn .here).1 (hn .here).2
    refine .read ?_ hv (by rw [hf]; exact hq) (ih (fun hr => hn (.later hr)))
    rw [ho x hne]
    exact hx

theorem Tracked.same {w : World V} {s s' : GS V} {q : String} {prog : FileProg V} {d : Dict String V}
    (h : Tracked w s q prog d) (ho : s'.obj = s.obj) (hf : s'.forced = s.forced) : Tracked w s' q prog d := by
  induction h with
  | done => exact .done
  | read hx hv hq _ ih => exact .read (by rw [ho]; exact hx) hv (by rw [hf]; exact hq) ih

theorem Tracked.gives {w : World V} {B : String → Prop} {s : GS V} {q : String} {prog : FileProg V}
    {d : Dict String V} (h : Tracked w s q prog d) (hi : Inv w B s) :
    Gives w (fun p => (s.conf p).map Conf.values) prog d := by
  induction h with
  | done => exact .done
  | read ho hv _ _ ih =>
    obtain ⟨c, hc, hcv⟩ := hi.sync _ _ ho
    exact .read (by rw [hc]; simp [hcv]) hv ih

theorem Tracked.ends {w : World V} {s : GS V} {q : String} {prog : FileProg V} {d : Dict String V}
    (h : Tracked w s q prog d) : Ends prog d := by
  induction h with
  | done => exact .done
  | read _ _ _ _ ih => exact .later ih

theorem addForced_grows (s : GS V) (d o : String) : Grows s (s.addForced d o) := by
  unfold GS.addForced
  split
  · exact .refl s
  · split
    · exact .refl s
    · refine ⟨fun _ _ h => h, fun _ _ h => h, fun p x hx => ?_⟩
      by_cases hp : p = o
      · subst hp; simp [setAt_same, hx]
      · simp only [setAt_ne _ _ hp]; exact hx

theorem addForced_conf (s : GS V) (d o : String) : (s.addForced d o).conf = s.conf := by
  unfold GS.addForced; split
  · rfl
  · split <;> rfl

theorem addForced_obj (s : GS V) (d o : String) : (s.addForced d o).obj = s.obj := by
  unfold GS.addForced; split
  · rfl
  · split <;> rfl

theorem addForced_mem (s : GS V) {d o : String} (h : d ≠ o) : d ∈ (s.addForced d o).forced o := by
  unfold GS.addForced
  rw [if_neg h]
  split
  · assumption
  · simp [setAt_same]

theorem Inv.addForced {w : World V} {B : String → Prop} {s : GS V} (h : Inv w B s) (d o : String) :
    Inv w B (s.addForced d o) := by
  refine ⟨?_, ?_, ?_⟩
  · rw [addForced_conf, addForced_obj]; exact h.sync
  · rw [addForced_conf]; exact h.has
  · rw [addForced_conf]
    intro q c hc hq
    obtain ⟨e, he, ha⟩ := h.settled q c hc hq
    exact ⟨e, he.grows (addForced_grows s d o), ha⟩

/-! ### Files that wait for themselves -/

/-- Running the program comes to an item that has no object. -/
inductive Leads (w : World V) (s : GS V) : FileProg V → String → Prop where
  | here {p a next} : s.obj p = none → Leads w s (.read p a next) p
  | later {p a next o v x} : s.obj p = some o → w.attr p o a = .ok v → Leads w s (next v) x → Leads w s (.read p a next) x

/-- Running the first program comes to the second one, with objects that are there. -/
inductive Prefix (w : World V) (s : GS V) : FileProg V → FileProg V → Prop where
  | refl {prog} : Prefix w s prog prog
  | step {p a next o v prog} : s.obj p = some o → w.attr p o a = .ok v → Prefix w s (next v) prog → Prefix w s (.read p a next) prog

theorem Prefix.snoc {w : World V} {s : GS V} {prog : FileProg V} {p a : String} {next : V → FileProg V} {o : Dict String V} {v : V}
    (h : Prefix w s prog (.read p a next)) (ho : s.obj p = some o) (hv : w.attr p o a = .ok v) : Prefix w s prog (next v) := by
  generalize hr : FileProg.read p a next = r at h
  induction h with
  | refl => subst hr; exact .step ho hv .refl
  | step h1 h2 _ ih => exact .step h1 h2 (ih hr)

theorem Prefix.leads {w : World V} {s : GS V} {prog r : FileProg V} {x : String} (h : Prefix w s prog r) (hl : Leads w s r x) :
    Leads w s prog x := by
  induction h with
  | refl => exact hl
  | step h1 h2 _ ih => exact .later h1 h2 (ih hl)

theorem Prefix.more {w : World V} {s s' : GS V} {prog r : FileProg V} (h : Prefix w s prog r)
    (hg : ∀ x o, s.obj x = some o → s'.obj x = some o) : Prefix w s' prog r := by
  induction h with
  | refl => exact .refl
  | step h1 h2 _ ih => exact .step (hg _ _ h1) h2 ih

theorem Leads.more {w : World V} {s s' : GS V} {prog : FileProg V} {x : String} (h : Leads w s prog x)
    (hg : ∀ x o, s.obj x = some o → s'.obj x = some o) (hx : s'.obj x = none) : Leads w s' prog x := by
  induction h with
  | here _ => exact .here hx
  | later h1 h2 _ ih => exact .later (hg _ _ h1) h2 (ih hx)

/-- Items that wait for one another are never got. -/
theorem getItem_stuck {w : World V} {C : String → Prop} (n : Nat) : ∀ x (s : GS V), C x →
    (∀ x, C x → s.conf x = none ∧ s.obj x = none ∧ ∃ y, C y ∧ Leads w s (w.files x) y) →
    ∀ o s', GM.getItem w n x s ≠ (.ok o, s') := by
  induction n with
  | zero => intro x s _ _ o s' h; cases h
  | succ n ih =>
    intro x s hx hC o s' h
    obtain ⟨hc, ho, y, hy, hl⟩ := hC x hx
    obtain ⟨_, s1, h1, h⟩ := of_bind_ok h
    cases h1
    rw [ho] at h
    obtain ⟨c, s1, h1, _⟩ := of_bind_ok h
    obtain ⟨_, s2, h2, h1⟩ := of_bind_ok h1
    cases h2
    rw [hc] at h1
    obtain ⟨d, s3, h3, _⟩ := of_bind_ok h1
    clear h h1
    have key : ∀ prog (s0 : GS V), s0.conf = s.conf → s0.obj = s.obj → Leads w s prog y →
        ∀ d s', GM.runFile w (GM.getItem w n) x prog s0 ≠ (.ok d, s') := by
      clear hl h3
      intro prog s0 e1 e2 hl
      induction hl generalizing s0 with
      | @here p a next hp =>
        intro d s' h
        unfold GM.runFile at h
        obtain ⟨_, s1, h1, h⟩ := of_bind_ok h
        cases h1
        obtain ⟨o, s2, h2, _⟩ := of_bind_ok h
        refine ih p (s0.addForced x p) hy ?_ o s2 h2
        intro z hz
        obtain ⟨hz1, hz2, z', hz', hzl⟩ := hC z hz
        rw [addForced_conf, addForced_obj, e1, e2]
        exact ⟨hz1, hz2, z', hz', hzl.more (fun x o h => by rw [addForced_obj, e2]; exact h)
          (by rw [addForced_obj, e2]; exact (hC z' hz').2.1)⟩
      | @later p a next o v z hp hv _ ihl =>
        intro d s' h
        unfold GM.runFile at h
        obtain ⟨_, s1, h1, h⟩ := of_bind_ok h
        cases h1
        obtain ⟨o', s2, h2, h⟩ := of_bind_ok h
        have hgot : o' = o ∧ s2 = s0.addForced x p := by
          cases n with
          | zero => cases h2
          | succ n =>
            obtain ⟨_, s3, h3, h2⟩ := of_bind_ok h2
            cases h3
            rw [addForced_obj, e2, hp] at h2
            cases h2
            exact ⟨rfl, rfl⟩
        obtain ⟨rfl, rfl⟩ := hgot
        rw [hv] at h
        exact ihl hy (s0.addForced x p) (by rw [addForced_conf, e1]) (by rw [addForced_obj, e2]) d s' h
    exact key _ s rfl rfl hl d s3 h3

/-- Getting an item, while the files of the items in `S` are being executed, each of which waits for another of them or for the item:
if it returns, none of them has been loaded. -/
theorem getItem_waiting {w : World V} (n : Nat) : ∀ (S : String → Prop) q (s : GS V),
    (∀ x, S x → s.conf x = none ∧ s.obj x = none ∧ ∃ y, (S y ∨ y = q) ∧ Leads w s (w.files x) y) →
    ∀ o s', GM.getItem w n q s = (.ok o, s') →
      (∀ x, S x → s'.conf x = none ∧ s'.obj x = none) ∧ (∀ x o, s.obj x = some o → s'.obj x = some o) ∧ s'.obj q = some o := by
  induction n with
  | zero => intro S q s _ o s' h; cases h
  | succ n ih =>
    intro S q s hS o s' hg
    have hq : ¬ S q := by
      intro hq
      refine getItem_stuck (C := S) (n + 1) q s hq (fun x hx => ?_) o s' hg
      obtain ⟨h1, h2, y, hy, hl⟩ := hS x hx
      refine ⟨h1, h2, y, ?_, hl⟩
      rcases hy with hy | hy
      · exact hy
      · subst hy; exact hq
    obtain ⟨_, s1, h1, h⟩ := of_bind_ok hg
    cases h1
    cases ho : s.obj q with
    | some o0 =>
      rw [ho] at h
      cases h
      exact ⟨fun x hx => ⟨(hS x hx).1, (hS x hx).2.1⟩, fun _ _ h => h, ho⟩
    | none =>
      rw [ho] at h
      obtain ⟨c, s1, h1, h⟩ := of_bind_ok h
      cases h
      have main : (∀ x, S x → s1.conf x = none ∧ s1.obj x = none) ∧ (∀ x o, s.obj x = some o → s1.obj x = some o) ∧
          s1.obj q = none := by
        obtain ⟨_, s2, h2, h1⟩ := of_bind_ok h1
        cases h2
        cases hc : s.conf q with
        | some c0 =>
          rw [hc] at h1
          cases h1
          exact ⟨fun x hx => ⟨(hS x hx).1, (hS x hx).2.1⟩, fun _ _ h => h, ho⟩
        | none =>
          rw [hc] at h1
          obtain ⟨d, s3, h3, h1⟩ := of_bind_ok h1
          cases h1
          have key : ∀ prog (t : GS V), Prefix w t (w.files q) prog →
              (∀ x, S x ∨ x = q → t.conf x = none ∧ t.obj x = none) →
              (∀ x, S x → ∃ y, (S y ∨ y = q) ∧ Leads w t (w.files x) y) →
              ∀ d t', GM.runFile w (GM.getItem w n) q prog t = (.ok d, t') →
                (∀ x, S x ∨ x = q → t'.conf x = none ∧ t'.obj x = none) ∧ (∀ x o, t.obj x = some o → t'.obj x = some o) := by
            intro prog
            induction prog with
            | done d => intro t _ h1 _ d t' h; cases h; exact ⟨h1, fun _ _ h => h⟩
            | raise e => intro t _ _ _ d t' h; cases h
            | read p a next ihp =>
              intro t hp hn hl d t' h
              unfold GM.runFile at h
              obtain ⟨_, t1, h1, h⟩ := of_bind_ok h
              cases h1
              obtain ⟨o, t2, h2, h⟩ := of_bind_ok h
              cases hv : w.attr p o a with
              | error e => rw [hv] at h; cases h
              | ok v =>
                rw [hv] at h
                have step : (∀ x, S x ∨ x = q → t2.conf x = none ∧ t2.obj x = none) ∧
                    (∀ x o, t.obj x = some o → t2.obj x = some o) ∧ t2.obj p = some o := by
                  cases hpo : t.obj p with
                  | some o' =>
                    cases n with
                    | zero => cases h2
                    | succ n =>
                      obtain ⟨_, t3, h3, h2⟩ := of_bind_ok h2
                      cases h3
                      rw [addForced_obj, hpo] at h2
                      cases h2
                      rw [addForced_conf, addForced_obj]
                      exact ⟨hn, fun _ _ h => h, hpo⟩
                  | none =>
                    have := ih (fun x => S x ∨ x = q) p (t.addForced q p) (fun x hx => by
                      have more : ∀ y, Leads w t (w.files x) y → t.obj y = none → Leads w (t.addForced q p) (w.files x) y :=
                        fun y hy hyn => hy.more (fun x o h => by rw [addForced_obj]; exact h) (by rw [addForced_obj]; exact hyn)
                      refine ⟨by rw [addForced_conf]; exact (hn x hx).1, by rw [addForced_obj]; exact (hn x hx).2, ?_⟩
                      rcases hx with hx | hx
                      · obtain ⟨y, hy, hyl⟩ := hl x hx
                        exact ⟨y, .inl hy, more y hyl (hn y hy).2⟩
                      · subst hx
                        exact ⟨p, .inr rfl, more p (hp.leads (.here hpo)) hpo⟩) o t2 h2
                    rw [addForced_obj] at this
                    exact this
                obtain ⟨n2, g2, o2⟩ := step
                have hr := ihp v t2 ((hp.more g2).snoc o2 hv) n2 (fun x hx => by
                  obtain ⟨y, hy, hyl⟩ := hl x hx
                  exact ⟨y, hy, hyl.more g2 (n2 y hy).2⟩) d t' h
                exact ⟨hr.1, fun x o hx => hr.2 x o (g2 x o hx)⟩
          obtain ⟨hn, hgr⟩ := key _ s .refl (fun x hx => by
            rcases hx with hx | hx
            · exact ⟨(hS x hx).1, (hS x hx).2.1⟩
            · subst hx; exact ⟨hc, ho⟩) (fun x hx => (hS x hx).2.2) d s3 h3
          refine ⟨fun x hx => ⟨?_, (hn x (.inl hx)).2⟩, hgr, (hn q (.inr rfl)).2⟩
          have hne : x ≠ q := fun he => hq (he ▸ hx)
          show setAt s3.conf q _ x = none
          rw [setAt_ne _ _ hne]
          exact (hn x (.inl hx)).1
      obtain ⟨m1, m2, m3⟩ := main
      refine ⟨fun x hx => ⟨(m1 x hx).1, ?_⟩, fun x o hx => ?_, setAt_same _ _ _⟩
      · have hne : x ≠ q := fun he => hq (he ▸ hx)
        show setAt s1.obj q _ x = none
        rw [setAt_ne _ _ hne]
        exact (m1 x hx).2
      · have hx' := m2 x o hx
        have hne : x ≠ q := by rintro rfl; rw [m3] at hx'; cases hx'
        show setAt s1.obj q _ x = some o
        rw [setAt_ne _ _ hne]
        exact hx'

/-- A file whose item is not loaded does not load it. -/
theorem runFile_not_itself {w : World V} {n : Nat} {q : String} {s s' : GS V} {d : Dict String V} (hc : s.conf q = none)
    (ho : s.obj q = none) (h : GM.runFile w (GM.getItem w n) q (w.files q) s = (.ok d, s')) : s'.conf q = none ∧ s'.obj q = none := by
  have key : ∀ prog (t : GS V), Prefix w t (w.files q) prog → t.conf q = none → t.obj q = none →
      ∀ d t', GM.runFile w (GM.getItem w n) q prog t = (.ok d, t') → t'.conf q = none ∧ t'.obj q = none := by
    intro prog
    induction prog with
    | done d => intro t _ h1 h2 d t' h; cases h; exact ⟨h1, h2⟩
    | raise e => intro t _ _ _ d t' h; cases h
    | read p a next ihp =>
      intro t hp hc ho d t' h
      unfold GM.runFile at h
      obtain ⟨_, t1, h1, h⟩ := of_bind_ok h
      cases h1
      obtain ⟨o, t2, h2, h⟩ := of_bind_ok h
      cases hv : w.attr p o a with
      | error e => rw [hv] at h; cases h
      | ok v =>
        rw [hv] at h
        have hgot : (t2.conf q = none ∧ t2.obj q = none) ∧ (∀ x o, t.obj x = some o → t2.obj x = some o) ∧ t2.obj p = some o := by
          cases hpo : t.obj p with
          | some o' =>
            cases n with
            | zero => cases h2
            | succ n =>
              obtain ⟨_, t3, h3, h2⟩ := of_bind_ok h2
              cases h3
              rw [addForced_obj, hpo] at h2
              cases h2
              rw [addForced_conf, addForced_obj]
              exact ⟨⟨hc, ho⟩, fun _ _ h => h, hpo⟩
          | none =>
            obtain ⟨n2, g2, o2⟩ := getItem_waiting n (fun x => x = q) p (t.addForced q p) (fun x hx => by
              subst hx
              refine ⟨by rw [addForced_conf]; exact hc, by rw [addForced_obj]; exact ho, p, .inr rfl, ?_⟩
              exact (hp.leads (.here hpo)).more (fun x o h => by rw [addForced_obj]; exact h) (by rw [addForced_obj]; exact hpo))
              o t2 h2
            rw [addForced_obj] at g2
            exact ⟨n2 q rfl, g2, o2⟩
        obtain ⟨⟨c2, o2⟩, g2, p2⟩ := hgot
        exact ihp v t2 ((hp.more g2).snoc p2 hv) c2 o2 d t' h
  exact key _ s .refl hc ho d s' h

/-! ### What is kept -/

/-- What holds of a computation that gets items. -/
def GetSpec (w : World V) (get : String → GM V (Dict String V)) : Prop :=
  ∀ p B s, Inv w B s → ∀ o s', get p s = (.ok o, s') → Grows s s' ∧ Inv w B s' ∧ s'.obj p = some o

theorem runFile_spec {w : World V} {get : String → GM V (Dict String V)} {q : String} (hget : GetSpec w get) (prog : FileProg V) :
    ∀ B s, Inv w B s → ∀ d s', GM.runFile w get q prog s = (.ok d, s') → Grows s s' ∧ Inv w B s' ∧ Tracked w s' q prog d := by
  induction prog with
  | done d =>
    intro B s hi d' s' h
    cases h
    exact ⟨.refl s, hi, .done⟩
  | raise e => intro B s hi d' s' h; cases h
  | read p a next ih =>
    intro B s hi d s' h
    unfold GM.runFile at h
    obtain ⟨_, s1, h1, h⟩ := of_bind_ok h
    cases h1
    obtain ⟨o, s2, h2, h⟩ := of_bind_ok h
    obtain ⟨g2, i2, o2⟩ := hget p B _ (hi.addForced q p) o s2 h2
    cases hv : w.attr p o a with
    | error e => rw [hv] at h; cases h
    | ok v =>
      rw [hv] at h
      obtain ⟨g3, i3, t3⟩ := ih v B s2 i2 d s' h
      refine ⟨(addForced_grows s q p).trans (g2.trans g3), i3, .read (g3.obj _ _ o2) hv ?_ t3⟩
      by_cases hne : q = p
      · exact .inr hne
      · exact .inl (g3.forced _ _ (g2.forced _ _ (addForced_mem s hne)))

theorem confOf_spec {w : World V} {q : String} {run : GM V (Dict String V)}
    (hrun : ∀ B s, Inv w B s → ∀ d s', run s = (.ok d, s') → Grows s s' ∧ Inv w B s' ∧ Tracked w s' q (w.files q) d)
    (hself : ∀ s d s', s.conf q = none → s.obj q = none → run s = (.ok d, s') → s'.conf q = none ∧ s'.obj q = none)
    (B : String → Prop) (s : GS V) (hi : Inv w B s) (c : Conf V) (s' : GS V)
    (h : GM.confOf run q s = (.ok c, s')) :
    Grows s s' ∧ Inv w B s' ∧ s'.conf q = some c ∧ (s.obj q = none → s'.obj q = none) := by
  obtain ⟨_, s1, h1, h⟩ := of_bind_ok h
  cases h1
  cases hc : s.conf q with
  | some c0 =>
    rw [hc] at h
    cases h
    exact ⟨.refl s, hi, hc, id⟩
  | none =>
    rw [hc] at h
    obtain ⟨d, s1, h1, h⟩ := of_bind_ok h
    cases h
    obtain ⟨g, i, t⟩ := hrun B s hi d s1 h1
    have ho : s.obj q = none := by
      cases ho : s.obj q with
      | none => rfl
      | some o =>
        obtain ⟨c, hc', _⟩ := hi.sync q o ho
        rw [hc] at hc'; cases hc'
    obtain ⟨hc1, ho1⟩ := hself s d s1 hc ho h1
    have hg : Grows s1 { s1 with conf := setAt s1.conf q (some (Conf.ofFile (.item []) d)) } := by
      refine ⟨fun p c hp => ?_, fun _ _ h => h, fun _ _ h => h⟩
      have hne : p ≠ q := by rintro rfl; rw [hc1] at hp; cases hp
      rw [← hp]; exact setAt_ne _ _ hne
    refine ⟨g.trans hg, ⟨?_, ?_, ?_⟩, setAt_same _ _ _, fun _ => ho1⟩
    · intro p o hp
      obtain ⟨c, hcp, hv⟩ := i.sync p o hp
      exact ⟨c, hg.conf p c hcp, hv⟩
    · intro p c hp
      by_cases hpq : p = q
      · subst hpq
        simp only [setAt_same, Option.some.injEq] at hp
        subst hp
        exact ⟨d, t.ends, fun k hk => hk⟩
      · simp only [setAt_ne _ _ hpq] at hp
        exact i.has p c hp
    · intro p c hp hb
      by_cases hpq : p = q
      · subst hpq
        simp only [setAt_same, Option.some.injEq] at hp
        subst hp
        exact ⟨d, t.grows hg, fun k v hk => .inl hk⟩
      · simp only [setAt_ne _ _ hpq] at hp
        obtain ⟨d', t', a'⟩ := i.settled p c hp hb
        exact ⟨d', t'.grows hg, a'⟩

theorem getItem_spec (w : World V) (n : Nat) : GetSpec w (GM.getItem w n) := by
  induction n with
  | zero => intro p B s _ o s' h; cases h
  | succ n ih =>
    intro q B s hi o s' h
    obtain ⟨_, s1, h1, h⟩ := of_bind_ok h
    cases h1
    cases ho : s.obj q with
    | some o0 =>
      rw [ho] at h
      cases h
      exact ⟨.refl s, hi, ho⟩
    | none =>
      rw [ho] at h
      obtain ⟨c, s1, h1, h⟩ := of_bind_ok h
      cases h
      obtain ⟨g, i, hc, u⟩ := confOf_spec (runFile_spec ih (w.files q)) (fun _ _ _ h1 h2 h3 => runFile_not_itself h1 h2 h3) B s hi c s1 h1
      have ho1 : s1.obj q = none := u ho
      have hg : Grows s1 { s1 with obj := setAt s1.obj q (some c.values) } := by
        refine ⟨fun _ _ h => h, fun p o hp => ?_, fun _ _ h => h⟩
        have hne : p ≠ q := by rintro rfl; rw [ho1] at hp; cases hp
        rw [← hp]; exact setAt_ne _ _ hne
      refine ⟨g.trans hg, ⟨?_, i.has, ?_⟩, setAt_same _ _ _⟩
      · intro p o hp
        by_cases hpq : p = q
        · subst hpq
          simp only [setAt_same, Option.some.injEq] at hp
          exact ⟨c, hc, hp⟩
        · simp only [setAt_ne _ _ hpq] at hp
          exact i.sync p o hp
      · intro p c' hp hb
        obtain ⟨d', t', a'⟩ := i.settled p c' hp hb
        exact ⟨d', t'.grows hg, a'⟩

theorem evalFile_spec (w : World V) (n : Nat) (q : String) :
    ∀ B s, Inv w B s → ∀ d s', GM.evalFile w n q s = (.ok d, s') → Grows s s' ∧ Inv w B s' ∧ Tracked w s' q (w.files q) d :=
  runFile_spec (getItem_spec w n) (w.files q)

theorem conf_spec (w : World V) (n : Nat) (q : String) (B : String → Prop) (s : GS V) (hi : Inv w B s) (c : Conf V) (s' : GS V)
    (h : GM.confOf (GM.evalFile w n q) q s = (.ok c, s')) : Grows s s' ∧ Inv w B s' ∧ s'.conf q = some c := by
  obtain ⟨h1, h2, h3, _⟩ := confOf_spec (evalFile_spec w n q) (fun _ _ _ h1 h2 h3 => runFile_not_itself h1 h2 h3) B s hi c s' h
  exact ⟨h1, h2, h3⟩

/-- What refreshing one item gives: it is settled, and nothing else is unsettled by it, but for items whose files read themselves. -/
def RefreshSpec (w : World V) (refresh : String → GM V Unit) : Prop :=
  ∀ q B, (∀ x, ReadsItself w x → B x) → ∀ s, Inv w (fun x => B x ∨ x = q) s → ∀ u s', refresh q s = (.ok u, s') → Inv w B s'

theorem each_spec {w : World V} {refresh : String → GM V Unit} (hr : RefreshSpec w refresh) (xs : List String) :
    ∀ B, (∀ x, ReadsItself w x → B x) → ∀ s, Inv w (fun x => B x ∨ x ∈ xs) s → ∀ u s', GM.each refresh xs s = (.ok u, s') → Inv w B s' := by
  induction xs with
  | nil =>
    intro B _ s hi u s' h
    cases h
    exact hi.mono (fun x hx => by simpa using hx)
  | cons x xs ih =>
    intro B hb s hi u s' h
    obtain ⟨_, s1, h1, h⟩ := of_bind_ok h
    refine ih B hb s1 (hr x _ (fun y hy => .inl (hb y hy)) s (hi.mono ?_) _ s1 h1) u s' h
    intro y hy
    rcases hy with hy | hy
    · exact .inl (.inl hy)
    · rcases List.mem_cons.1 hy with rfl | hy
      · exact .inr rfl
      · exact .inl (.inr hy)

theorem loop_spec {w : World V} {refresh : String → GM V Unit} (hr : RefreshSpec w refresh) (hv : VisitsAll w)
    (p : String) (n : Nat) : ∀ todo done B, (∀ x, ReadsItself w x → B x) → ∀ s, Inv w (fun x => B x ∨ x ∈ todo) s → ∀ u s',
      GM.dependentsLoop w refresh p n todo done s = (.ok u, s') → Inv w B s' := by
  induction n with
  | zero =>
    intro todo done B hb s hi u s' h
    unfold GM.dependentsLoop at h
    by_cases ht : todo.isEmpty = true
    · rw [if_pos ht] at h
      cases h
      refine hi.mono (fun x hx => ?_)
      rw [List.isEmpty_iff] at ht
      simpa [ht] using hx
    · rw [if_neg ht] at h; cases h
  | succ n ih =>
    intro todo done B hb s hi u s' h
    unfold GM.dependentsLoop at h
    by_cases ht : todo.isEmpty = true
    · rw [if_pos ht] at h
      cases h
      refine hi.mono (fun x hx => ?_)
      rw [List.isEmpty_iff] at ht
      simpa [ht] using hx
    · rw [if_neg ht] at h
      obtain ⟨_, s0, h0, h⟩ := of_bind_ok h
      cases h0
      obtain ⟨_, s1, h1, h⟩ := of_bind_ok h
      obtain ⟨_, s2, h2, h⟩ := of_bind_ok h
      cases h2
      have i1 : Inv w B s1 := each_spec hr _ B hb s (hi.mono (fun x hx => hx.imp id (hv s todo x).1)) _ s1 h1
      simp only at h
      split at h
      · cases h
      · exact ih _ _ B hb s1 (i1.mono (fun x hx => .inl hx)) u s' h

/-- The config of `q` was replaced by `c'`, which agrees with its file or need not. -/
theorem apply_spec {w : World V} (hv : VisitsAll w)
    {refresh : String → GM V Unit} (hr : RefreshSpec w refresh) (n : Nat) (q : String) (c' : Conf V)
    (announced : Dict String V)
    (B : String → Prop) (hB : ∀ x, ReadsItself w x → B x) (s : GS V) (hi : Inv w (fun x => B x ∨ x = q) s)
    (hk : HasKeys (w.files q) c')
    (hq : B q ∨ ∃ d, Tracked w s q (w.files q) d ∧ Agree c' d) (u : Unit) (s' : GS V)
    (h : GM.applyAndRefresh w refresh n q c'.values announced { s with conf := setAt s.conf q (some c') } = (.ok u, s')) :
    Inv w B s' := by
  obtain ⟨_, s0, h0, h⟩ := of_bind_ok h
  cases h0
  cases ho : s.obj q with
  | none =>
    simp only [ho] at h
    cases h
    refine ⟨?_, ?_, ?_⟩
    · intro p o hp
      have hne : p ≠ q := by rintro rfl; rw [show s.obj p = some o from hp] at ho; cases ho
      obtain ⟨c, hc, hcv⟩ := hi.sync p o hp
      exact ⟨c, by rw [← hc]; exact setAt_ne _ _ hne, hcv⟩
    · intro p c hp
      by_cases hpq : p = q
      · subst hpq
        simp only [setAt_same, Option.some.injEq] at hp
        subst hp; exact hk
      · simp only [setAt_ne _ _ hpq] at hp
        exact hi.has p c hp
    · intro p c hp hb
      by_cases hpq : p = q
      · subst hpq
        simp only [setAt_same, Option.some.injEq] at hp
        subst hp
        obtain ⟨d, t, a⟩ := hq.resolve_left hb
        exact ⟨d, t.same rfl rfl, a⟩
      · simp only [setAt_ne _ _ hpq] at hp
        obtain ⟨d, t, a⟩ := hi.settled p c hp (fun h => h.elim hb hpq)
        exact ⟨d, t.same rfl rfl, a⟩
  | some o =>
    simp only [ho] at h
    obtain ⟨_, s1, h1, h⟩ := of_bind_ok h
    cases h1
    split at h
    · cases h
    obtain ⟨_, s2, h2, h⟩ := of_bind_ok h
    cases h2
    refine loop_spec hr hv q n _ _ B hB _ ?_ u s' h
    refine ⟨?_, ?_, ?_⟩
    · intro p o hp
      by_cases hpq : p = q
      · subst hpq
        simp only [setAt_same, Option.some.injEq] at hp
        exact ⟨c', setAt_same _ _ _, hp⟩
      · simp only [setAt_ne _ _ hpq] at hp
        obtain ⟨c, hc, hcv⟩ := hi.sync p o hp
        exact ⟨c, by rw [← hc]; exact setAt_ne _ _ hpq, hcv⟩
    · intro p c hp
      by_cases hpq : p = q
      · subst hpq
        simp only [setAt_same, Option.some.injEq] at hp
        subst hp; exact hk
      · simp only [setAt_ne _ _ hpq] at hp
        exact hi.has p c hp
    · intro p c hp hb
      simp only [not_or] at hb
      by_cases hpq : p = q
      · subst hpq
        simp only [setAt_same, Option.some.injEq] at hp
        subst hp
        obtain ⟨d, t, a⟩ := hq.resolve_left hb.1
        refine ⟨d, t.setObj (p := p) ?_ (fun x hx => setAt_ne _ _ hx) rfl, a⟩
        intro hr
        exact absurd (hB p hr) hb.1
      · simp only [setAt_ne _ _ hpq] at hp
        obtain ⟨d, t, a⟩ := hi.settled p c hp (fun h => h.elim hb.1 hpq)
        exact ⟨d, t.setObj (p := q) (fun _ => ⟨hb.2, hpq⟩) (fun x hx => setAt_ne _ _ hx) rfl, a⟩

theorem refresh_values {c c' : Conf V} {d ups : Dict String V} (h : c.refresh d = .ok (c', ups)) :
    c'.values = c.values.update (d.update c.applied) ∧ c'.applied = c.applied := by
  unfold Conf.refresh at h
  simp only at h
  split at h
  · cases h
  · cases h
    exact ⟨rfl, rfl⟩

theorem HasKeys.update {prog : FileProg V} {c c' : Conf V} (h : HasKeys prog c)
    (hk : ∀ k, c.values.get? k ≠ none → c'.values.get? k ≠ none) : HasKeys prog c' := by
  obtain ⟨d, hd, hh⟩ := h
  exact ⟨d, hd, fun k hk' => hk k (hh k hk')⟩

theorem get?_update_ne_none (d e : Dict String V) (k : String) (h : d.get? k ≠ none) : (d.update e).get? k ≠ none := by
  rw [Dict.get?_update]
  cases e.get? k <;> simp [h]

/-- No change: the config agrees already. -/
theorem agree_of_no_change [BEq V] (he : EqIsSame V) {c : Conf V} {d : Dict String V}
    (h : (c.changeFromRefresh d).items.isEmpty = true) : Agree c d := by
  intro k v hk
  have hw : c.wouldUpdate (some (d.update c.applied)) Dict.empty = false := by
    cases hw : c.wouldUpdate (some (d.update c.applied)) Dict.empty with
    | false => rfl
    | true =>
      unfold Conf.changeFromRefresh at h
      simp only [hw, if_true] at h
      have := (Dict.mem_items_iff _ k v).2 hk
      rw [List.isEmpty_iff] at h
      rw [h] at this
      cases this
  cases hc : c.values.get? k with
  | none => exact .inr rfl
  | some x =>
    left
    cases hx : (x == v) with
    | true => rw [he x v hx]
    | false =>
      have : c.wouldUpdate (some (d.update c.applied)) Dict.empty = true :=
        (Conf.wouldUpdate_iff c _ _).2 ⟨k, v, x, by simp [hk], hc, hx⟩
      rw [hw] at this; cases this

theorem refresh_spec [BEq V] (he : EqIsSame V) {w : World V} (hv : VisitsAll w) (n : Nat) : RefreshSpec w (GM.refresh w n) := by
  induction n with
  | zero => intro q B _ s _ u s' h; cases h
  | succ n ih =>
    intro q B hB s hi u s' h
    obtain ⟨c, s1, h1, h⟩ := of_bind_ok h
    obtain ⟨g1, i1, c1⟩ := conf_spec w n q _ s hi c s1 h1
    obtain ⟨d, s2, h2, h⟩ := of_bind_ok h
    obtain ⟨g2, i2, t2⟩ := evalFile_spec w n q _ s1 i1 d s2 h2
    split at h
    · next hem =>
      cases h
      refine ⟨i2.sync, i2.has, fun p c' hp hb => ?_⟩
      by_cases hpq : p = q
      · subst hpq
        have : c' = c := by
          have := g2.conf _ _ c1
          rw [this] at hp; cases hp; rfl
        subst this
        exact ⟨d, t2, agree_of_no_change he hem⟩
      · exact i2.settled p c' hp (fun h => h.elim hb hpq)
    · obtain ⟨d3, s3, h3, h⟩ := of_bind_ok h
      obtain ⟨g3, i3, t3⟩ := evalFile_spec w n q _ s2 i2 d3 s3 h3
      cases hr : c.refresh d3 with
      | error e => rw [hr] at h; cases h
      | ok r =>
        obtain ⟨c', ups⟩ := r
        rw [hr] at h
        obtain ⟨_, s4, h4, h⟩ := of_bind_ok h
        cases h4
        obtain ⟨hval, happ⟩ := refresh_values hr
        have c3 := g3.conf _ _ (g2.conf _ _ c1)
        refine apply_spec hv ih n q c' _ B hB s3 i3 ?_ (.inr ⟨d3, t3, ?_⟩) u s' h
        · refine (i3.has q c c3).update (fun k hk => ?_)
          rw [hval]
          exact get?_update_ne_none _ _ k hk
        · intro k v hk
          rw [happ] at hk
          left
          rw [hval, Dict.get?_update, hk]
          rfl

theorem update_spec [BEq V] (he : EqIsSame V) {w : World V} (hv : VisitsAll w) (n : Nat) (q : String) (d : Option (Dict String V)) (persist : Bool) (kw : Dict String V)
    (B : String → Prop) (hS : ∀ x, ReadsItself w x → B x) (hB : persist = false → B q) (s : GS V) (hi : Inv w B s) (u : Unit) (s' : GS V)
    (h : GM.update w n q d persist kw s = (.ok u, s')) : Inv w B s' := by
  obtain ⟨c, s1, h1, h⟩ := of_bind_ok h
  obtain ⟨g1, i1, c1⟩ := conf_spec w n q _ s hi c s1 h1
  obtain ⟨would, s2, h2, h'⟩ := of_bind_ok h
  clear h
  have hs2 : s2 = s1 := by
    cases hd : CMM.determineWouldUpdate c d kw with
    | error e => rw [hd] at h2; cases h2
    | ok b => rw [hd] at h2; cases h2; rfl
  subst hs2
  split at h'
  · split at h'
    · cases h'
    · obtain ⟨_, s4, h4, h⟩ := of_bind_ok h'
      cases h4
      refine apply_spec hv (refresh_spec he hv n) n q (c.update d persist kw) _ B hS s2
        (i1.mono (fun x hx => .inl hx)) ?_ ?_ u s' h
      · refine (i1.has q c c1).update (fun k hk => ?_)
        exact get?_update_ne_none _ _ k (get?_update_ne_none _ _ k hk)
      · by_cases hb : B q
        · exact .inl hb
        · right
          have hp : persist = true := by
            cases persist with
            | true => rfl
            | false => exact absurd (hB rfl) hb
          subst hp
          obtain ⟨d0, t0, a0⟩ := i1.settled q c c1 hb
          refine ⟨d0, t0, fun k v hk => ?_⟩
          have ha := a0 k
          revert hk
          simp only [Conf.update, if_true, Dict.get?_update]
          cases kw.get? k with
          | some x => simp
          | none =>
            cases d with
            | none => simpa [Dict.get?_update] using ha v
            | some e =>
              cases e.get? k with
              | some x => simp
              | none => simpa [Dict.get?_update] using ha v
  · cases h'
    exact i1

theorem runFile_replay {w : World V} {n : Nat} {q : String} {s : GS V} {prog : FileProg V} {d : Dict String V}
    (h : Tracked w s q prog d) : GM.runFile w (GM.getItem w (n + 1)) q prog s = (.ok d, s) := by
  induction h with
  | done => rfl
  | @read p a next o v d ho hv hf _ ih =>
    unfold GM.runFile
    have h1 : s.addForced q p = s := by
      unfold GS.addForced
      rcases hf with hf | hf
      · split
        · rfl
        · rfl
      · rw [if_pos hf]
    have h2 : GM.getItem w (n + 1) p s = (.ok o, s) := by
      unfold GM.getItem
      rw [M.bind_ok (M.get_run s), ho]
      rfl
    rw [M.bind_ok (M.modify_run _ s), h1, M.bind_ok h2, hv]
    exact ih

/-- Executing a file again gives the same and changes nothing. -/
theorem evalFile_replay {w : World V} {n : Nat} {q : String} {s s' : GS V} {d d' : Dict String V}
    (h : GM.evalFile w n q s = (.ok d, s')) (ht : Tracked w s' q (w.files q) d') (hd : d = d') :
    GM.evalFile w n q s' = (.ok d, s') := by
  subst hd
  cases n with
  | succ n => exact runFile_replay ht
  | zero =>
    unfold GM.evalFile at h ⊢
    cases hp : w.files q with
    | done d0 => rw [hp] at h ht; cases ht; rfl
    | raise e => rw [hp] at h; cases h
    | read p a next =>
      rw [hp] at h
      unfold GM.runFile at h
      rw [M.bind_ok (M.modify_run _ s), M.bind_error (m := GM.getItem w 0 p) (e := .fuel) rfl] at h
      cases h

theorem reset_spec [BEq V] (he : EqIsSame V) {w : World V} (hv : VisitsAll w) (n : Nat) (q : String) (B : String → Prop) (hS : ∀ x, ReadsItself w x → B x) (s : GS V) (hi : Inv w B s) (u : Unit) (s' : GS V)
    (h : GM.reset w n q s = (.ok u, s')) : Inv w B s' := by
  obtain ⟨d, s1, h1, h⟩ := of_bind_ok h
  obtain ⟨g1, i1, t1⟩ := evalFile_spec w n q _ s hi d s1 h1
  have hre := evalFile_replay h1 t1 rfl
  obtain ⟨cur, s2, h2, h⟩ := of_bind_ok h
  have hcur : ∃ c, GM.confOf (GM.evalFile w n q) q s1 = (.ok c, s2) ∧ cur = some c := by
    have hok : ∃ c s3, GM.confOf (GM.evalFile w n q) q s1 = (.ok c, s3) := by
      unfold GM.confOf
      rw [M.bind_ok (M.get_run s1)]
      cases s1.conf q with
      | some c => exact ⟨_, _, rfl⟩
      | none => simp only; rw [M.bind_ok hre]; exact ⟨_, _, rfl⟩
    obtain ⟨c, s3, hc⟩ := hok
    unfold M.tryCatch at h2
    rw [M.bind_ok hc] at h2
    cases h2
    exact ⟨c, hc, rfl⟩
  obtain ⟨c, hc, rfl⟩ := hcur
  obtain ⟨g2, i2, c2⟩ := conf_spec w n q _ s1 i1 c s2 hc
  simp only at h
  obtain ⟨would, s3, h3, h'⟩ := of_bind_ok h
  clear h
  have hs3 : s3 = s2 := by
    cases hd : CMM.determineWouldUpdate c none d with
    | error e => rw [hd] at h3; cases h3
    | ok b => rw [hd] at h3; cases h3; rfl
  subst hs3
  split at h'
  · obtain ⟨_, s4, h4, h⟩ := of_bind_ok h'
    cases h4
    refine apply_spec hv (refresh_spec he hv n) n q (Conf.ofFile (.item []) d) _ B hS s3
      (i2.mono (fun x hx => .inl hx)) ⟨d, t1.ends, fun k hk => hk⟩ (.inr ⟨d, t1.grows g2, fun k v hk => ?_⟩) u s' h
    exact .inl hk
  · cases h'
    exact i2

/-! ## C28 -/

theorem Inv.start (w : World V) (B : String → Prop) : Inv w B GS.new :=
  ⟨fun _ _ h => (by cases h), fun _ _ h => (by cases h), fun _ _ h => (by cases h)⟩

theorem history_inv [BEq V] (he : EqIsSame V) {w : World V} (hv : VisitsAll w) {ops : List (GOp V)} {s : GS V} (h : History w ops s) :
    Inv w (fun q => ¬ (OnlyPersistent ops q ∧ ¬ ReadsItself w q)) s := by
  induction h with
  | start => exact .start w _
  | @op ops s o n s' _ ho ih =>
    have hm : Inv w (fun q => ¬ (OnlyPersistent (ops ++ [o]) q ∧ ¬ ReadsItself w q)) s :=
      ih.mono (fun q hq h => hq ⟨fun d p kw hm => h.1 d p kw (List.mem_append.2 (.inl hm)), h.2⟩)
    have hs : ∀ x, ReadsItself w x → ¬ (OnlyPersistent (ops ++ [o]) x ∧ ¬ ReadsItself w x) := fun x hx h => h.2 hx
    cases o with
    | get q =>
      obtain ⟨o, s1, h1, h⟩ := of_bind_ok ho
      cases h
      exact (getItem_spec w n q _ s hm o s' h1).2.1
    | update q d persist kw =>
      refine update_spec he hv n q d persist kw _ hs ?_ s hm () s' ho
      intro hp h
      have := h.1 d persist kw (List.mem_append.2 (.inr (List.mem_singleton.2 rfl)))
      rw [hp] at this; cases this
    | refresh q => exact refresh_spec he hv n q _ hs s (hm.mono (fun _ h => .inl h)) () s' ho
    | reset q => exact reset_spec he hv n q _ hs s hm () s' ho
    | used d o =>
      cases ho
      exact hm.addForced d o

/-- C28. After any history of operations that returned (gets, runs, updates, refreshes and resets of any items, in any project, whatever
its files read), in whatever order dependents were refreshed: what is configured for an item is what its file gives under the present
configuration of all items, with its own updates on top.  Exceptions: items that were updated without persistence, items whose file reads
the item itself, and keys that the file does not assign in every case, which may be missing. -/
theorem C28_consistent [BEq V] (he : EqIsSame V) (w : World V) (hv : VisitsAll w) (ops : List (GOp V)) (s : GS V) (h : History w ops s)
    (q : String) (hq : OnlyPersistent ops q) (hn : ¬ ReadsItself w q) (c : Conf V) (hc : s.conf q = some c) :
    ∃ d, Gives w (fun p => (s.conf p).map Conf.values) (w.files q) d ∧
      ∀ k v, (d.update c.applied).get? k = some v →
        c.values.get? k = some v ∨
        (c.values.get? k = none ∧ ∃ d', Ends (w.files q) d' ∧ d'.get? k = none) := by
  have hi := history_inv he hv h
  obtain ⟨d, t, a⟩ := hi.settled q c hc (fun hn' => hn' ⟨hq, hn⟩)
  refine ⟨d, t.gives hi, fun k v hk => (a k v hk).imp id (fun hn => ⟨hn, ?_⟩)⟩
  obtain ⟨d', hd', hk'⟩ := hi.has q c hc
  refine ⟨d', hd', ?_⟩
  cases hdk : d'.get? k with
  | none => rfl
  | some x => exact absurd hn (hk' k (by rw [hdk]; simp))

/-- C28. An object has the configuration of its item. -/
theorem C28_objects [BEq V] (he : EqIsSame V) (w : World V) (hv : VisitsAll w) (ops : List (GOp V)) (s : GS V) (h : History w ops s)
    (q : String) (o : Dict String V) (ho : s.obj q = some o) : ∃ c, s.conf q = some c ∧ c.values = o :=
  (history_inv he hv h).sync q o ho

/-- A project: `m.b` reads `x` of `m.a`, and `m.c` reads `y` of `m.b` and `x` of `m.a`; when that is large,
`m.d` assigns one more value. -/
def demoWorld : World Nat where
  files q :=
    if q = "m.a" then .done (Dict.ofList [("x", 1)])
    else if q = "m.b" then .read "m.a" "x" (fun v => .done (Dict.ofList [("y", v + 10), ("z", 5)]))
    else if q = "m.c" then .read "m.b" "y" (fun v => .read "m.a" "x" (fun u => .done (Dict.ofList [("t", 100 * v + u)])))
    else if q = "m.d" then .read "m.a" "x" (fun v =>
      if v < 5 then .done (Dict.ofList [("i", 0)]) else .done (Dict.ofList [("i", 0), ("j", v)]))
    else .raise .attributeError
  attr _ o a := match o.get? a with
    | some v => .ok v
    | none => .error .attributeError
  order _ xs := xs.reverse

/-- Its numbering. -/
def demoRank (q : String) : Nat := if q = "m.a" then 0 else if q = "m.b" then 1 else 2

theorem demoWorld_acyclic : ∀ q p, Reads (demoWorld.files q) p → demoRank p < demoRank q := by
  intro q p h
  unfold demoWorld at h
  simp only at h
  split at h
  · cases h
  · split at h
    · next hb =>
      subst hb
      cases h with
      | here => decide +kernel
      | later h => cases h
    · split at h
      · next hc =>
        subst hc
        cases h with
        | here => decide +kernel
        | later h => cases h with
          | here => decide +kernel
          | later h => cases h
      · split at h
        · next hd =>
          subst hd
          cases h with
          | here => decide +kernel
          | later h => simp only at h; split at h <;> cases h
        · cases h

theorem demoWorld_visits : VisitsAll demoWorld := by
  intro s xs x
  simp [demoWorld]

/-- Several operations, with what they leave. -/
def GM.ops (w : World Nat) (n : Nat) : List (GOp Nat) → GM Nat Unit
  | [] => pure ()
  | o :: os => do
    GM.op w n o
    GM.ops w n os

/-- The value of a key of an item's config. -/
def configured (s : GS Nat) (q k : String) : Option Nat := (s.conf q).bind (fun c => c.values.get? k)

/-- Get `m.c` and update `m.b`, then update `m.a`. -/
def demoOps : List (GOp Nat) := [.get "m.c", .update "m.b" (some (Dict.ofList [("z", 6)])) true Dict.empty,
  .update "m.a" none true (Dict.ofList [("x", 2)])]

theorem History.next {w : World Nat} {ops : List (GOp Nat)} {s : GS Nat} (h : History w ops s) (n : Nat) (o : GOp Nat)
    (hr : (GM.op w n o s).1.isOk = true) : History w (ops ++ [o]) (GM.op w n o s).2 := by
  refine .op (n := n) h ?_
  cases ho : GM.op w n o s with
  | mk r s' =>
    rw [ho] at hr
    cases r with
    | ok u => rfl
    | error e => cases hr

theorem demo_history : ∃ s, History demoWorld demoOps s ∧ configured s "m.b" "y" = some 12 ∧
    configured s "m.b" "z" = some 6 ∧ configured s "m.c" "t" = some 1202 := by
  refine ⟨_, ((History.start.next 9 (.get "m.c") ?_).next 9 (.update "m.b" (some (Dict.ofList [("z", 6)])) true Dict.empty)
    ?_).next 9 (.update "m.a" none true (Dict.ofList [("x", 2)])) ?_, ?_, ?_, ?_⟩ <;> decide +kernel

/-- A reset reaches the dependents as well. -/
example : ∃ s, History demoWorld (demoOps ++ [.reset "m.a"]) s ∧ configured s "m.a" "x" = some 1 ∧
    configured s "m.b" "y" = some 11 ∧ configured s "m.b" "z" = some 6 ∧ configured s "m.c" "t" = some 1101 := by
  refine ⟨_, (((History.start.next 9 (.get "m.c") ?_).next 9 (.update "m.b" (some (Dict.ofList [("z", 6)])) true Dict.empty)
    ?_).next 9 (.update "m.a" none true (Dict.ofList [("x", 2)])) ?_).next 9 (.reset "m.a") ?_, ?_, ?_, ?_, ?_⟩ <;>
    decide +kernel

example : EqIsSame Nat ∧ (∀ q, ¬ ReadsItself demoWorld q) ∧ VisitsAll demoWorld ∧
    (∃ s, History demoWorld demoOps s ∧ ∃ c, s.conf "m.c" = some c) ∧ OnlyPersistent demoOps "m.c" := by
  refine ⟨fun a b h => by simpa using h, fun q h => Nat.lt_irrefl _ (demoWorld_acyclic q q h), demoWorld_visits, ?_, ?_⟩
  · obtain ⟨s, h, _, _, hc⟩ := demo_history
    refine ⟨s, h, ?_⟩
    unfold configured at hc
    cases hcc : s.conf "m.c" with
    | none => rw [hcc] at hc; cases hc
    | some c => exact ⟨c, rfl⟩
  · intro d p kw h
    simp [demoOps] at h

/-- C28 fails for a key that the file assigns only in some cases: after the update of `m.a` the file of
`m.d` gives `j = 7`, but the config of `m.d` has no `j`. -/
theorem C28_new_key_violated : ∃ s, History demoWorld
      [.get "m.d", .update "m.a" none true (Dict.ofList [("x", 7)])] s ∧
    Gives demoWorld (fun p => (s.conf p).map Conf.values) (demoWorld.files "m.d")
      (Dict.ofList [("i", 0), ("j", 7)]) ∧
    configured s "m.d" "i" = some 0 ∧ configured s "m.d" "j" = none := by
  refine ⟨_, (History.start.next 9 (.get "m.d") ?_).next 9 (.update "m.a" none true (Dict.ofList [("x", 7)])) ?_,
    .read (o := Dict.ofList [("x", 7)]) (v := 7) ?_ ?_ .done, ?_, ?_⟩ <;> first | decide +kernel | rfl

/-- `m.b` reads `x` of `m.a`, and unless that is 1 also `y` of itself. -/
def demoItself : World Nat where
  files q :=
    if q = "m.a" then .done (Dict.ofList [("x", 1)])
    else if q = "m.b" then .read "m.a" "x" (fun v =>
      if v = 1 then .done (Dict.ofList [("y", 1), ("z", 1)]) else .read "m.b" "y" (fun u => .done (Dict.ofList [("z", u)])))
    else .raise .attributeError
  attr _ o a := match o.get? a with
    | some v => .ok v
    | none => .error .attributeError
  order _ xs := xs

/-- C28 fails for items whose file reads the item itself: the file gives `z = 9` now, but 1 is configured. -/
theorem C28_itself_violated : ∃ s, History demoItself
      [.get "m.b", .update "m.a" none true (Dict.ofList [("x", 7)]), .update "m.b" none true (Dict.ofList [("y", 9)])] s ∧
    Gives demoItself (fun p => (s.conf p).map Conf.values) (demoItself.files "m.b") (Dict.ofList [("z", 9)]) ∧
    configured s "m.b" "y" = some 9 ∧ configured s "m.b" "z" = some 1 := by
  refine ⟨_, ((History.start.next 9 (.get "m.b") ?_).next 9 (.update "m.a" none true (Dict.ofList [("x", 7)])) ?_).next 9
    (.update "m.b" none true (Dict.ofList [("y", 9)])) ?_,
    .read (o := Dict.ofList [("x", 7)]) (v := 7) ?_ ?_ (.read (o := Dict.ofList [("y", 9), ("z", 1)]) (v := 9) ?_ ?_ .done), ?_, ?_⟩ <;>
    first | decide +kernel | rfl

/-- C28: items of which each waits for another of them, directly or after others that are there, are never got, whatever else is. -/
theorem C28_circle [BEq V] (w : World V) (s : GS V) (circle : String → Prop)
    (h : ∀ x, circle x → s.conf x = none ∧ s.obj x = none ∧ ∃ y, circle y ∧ Leads w s (w.files x) y) (x : String) (hx : circle x)
    (n : Nat) (s' : GS V) : GM.op w n (.get x) s ≠ (.ok (), s') := by
  intro hg
  obtain ⟨o, s1, h1, _⟩ := of_bind_ok hg
  exact getItem_stuck n x s hx h o s1 h1

/-! ## C29 -/

/-- A set of items that includes all items its files read, without circles. -/
def ClosedAcyclic (w : World V) (rank : String → Nat) (items : List String) : Prop :=
  ∀ q ∈ items, ∀ p, Reads (w.files q) p → p ∈ items ∧ rank p < rank q

/-- The recorded dependents of each item are among the items, without circles. -/
def RecordsAcyclic (rank : String → Nat) (items : List String) (s : GS V) : Prop :=
  ∀ p q, q ∈ s.forced p → q ∈ items ∧ rank p < rank q

/-- The item an operation is about. -/
def Within (items : List String) : GOp V → Prop
  | .get q => q ∈ items
  | .update q _ _ _ => q ∈ items
  | .refresh q => q ∈ items
  | .reset q => q ∈ items
  | .used _ _ => True

/-- The computation ends, not because of the guard, and keeps the records acyclic. -/
def Safe {α : Type} (rank : String → Nat) (items : List String) (m : GM V α) : Prop :=
  ∀ s, RecordsAcyclic rank items s → RecordsAcyclic rank items (m s).2 ∧
    (m s).1 ≠ .error .fuel

namespace Safe
variable {rank : String → Nat} {items : List String} {α β : Type}

theorem pure (a : α) : Safe rank items (Pure.pure a : GM V α) := fun s hs => ⟨hs, by simp⟩

theorem raise {e : Stop} (h : e ≠ .fuel) : Safe rank items (M.raise e : GM V α) :=
  fun s hs => ⟨hs, by simpa using h⟩

theorem get : Safe rank items (M.get : GM V (GS V)) := fun s hs => ⟨hs, by simp⟩

theorem modify {f : GS V → GS V} (h : ∀ s, (f s).forced = s.forced) : Safe rank items (M.modify f : GM V Unit) := by
  intro s hs
  refine ⟨?_, by simp⟩
  show RecordsAcyclic rank items (f s)
  unfold RecordsAcyclic
  rw [h]
  exact hs

theorem tryCatch {m : GM V α} {f : Stop → GM V α} (hm : Safe rank items m)
    (hf : ∀ e, e ≠ .fuel → Safe rank items (f e)) : Safe rank items (M.tryCatch m f) := by
  intro s hs
  have h := hm s hs
  unfold M.tryCatch
  cases hr : m s with
  | mk r s' =>
    rw [hr] at h
    cases r with
    | ok a => exact ⟨h.1, by simp⟩
    | error e => exact hf e (fun he => h.2 (by rw [he])) s' h.1

theorem bind {m : GM V α} {f : α → GM V β} (hm : Safe rank items m) (hf : ∀ a, Safe rank items (f a)) :
    Safe rank items (m >>= f) := by
  intro s hs
  have h := hm s hs
  rw [M.bind_run]
  cases hr : m s with
  | mk r s' =>
    rw [hr] at h
    cases r with
    | ok a => exact hf a s' h.1
    | error e => exact ⟨h.1, by have := h.2; simpa using this⟩

/-- Reading the state gives one with acyclic records. -/
theorem getBind {f : GS V → GM V β} (hf : ∀ s0, RecordsAcyclic rank items s0 → Safe rank items (f s0)) :
    Safe rank items (M.get >>= f) := fun s hs => hf s hs s hs

end Safe

section
variable {rank : String → Nat} {items : List String} {w : World V}

theorem runFile_safe {get : String → GM V (Dict String V)} {q : String} (hq : q ∈ items)
    (hget : ∀ p ∈ items, rank p < rank q → Safe rank items (get p)) (prog : FileProg V)
    (hr : ∀ p, Reads prog p → p ∈ items ∧ rank p < rank q) : Safe rank items (GM.runFile w get q prog) := by
  induction prog with
  | done d => exact .pure d
  | raise e => exact .raise (by simp)
  | read p a next ih =>
    unfold GM.runFile
    refine .bind ?_ (fun _ => .bind (hget p (hr p .here).1 (hr p .here).2) (fun o => ?_))
    · intro s hs
      refine ⟨?_, by simp⟩
      show RecordsAcyclic rank items (s.addForced q p)
      unfold GS.addForced
      split
      · exact hs
      · split
        · exact hs
        · intro x y hy
          by_cases hx : x = p
          · subst hx
            simp only [setAt_same, List.mem_append, List.mem_singleton] at hy
            rcases hy with hy | rfl
            · exact hs x y hy
            · exact ⟨hq, (hr x .here).2⟩
          · simp only [setAt_ne _ _ hx] at hy
            exact hs x y hy
    · cases w.attr p o a with
      | error e => exact .raise (by simp)
      | ok v => exact ih v (fun x hx => hr x (.later hx))

theorem confOf_safe {q : String} {run : GM V (Dict String V)} (h : Safe rank items run) :
    Safe rank items (GM.confOf run q) := by
  refine .bind .get (fun s => ?_)
  cases s.conf q with
  | some c => exact .pure c
  | none => exact .bind h (fun d => .bind (.modify (fun _ => rfl)) (fun _ => .pure _))

theorem getItem_safe (hc : ClosedAcyclic w rank items) (n : Nat) :
    ∀ q ∈ items, rank q < n → Safe rank items (GM.getItem w n q) := by
  induction n with
  | zero => intro q _ h; omega
  | succ n ih =>
    intro q hq hn
    refine .bind .get (fun s => ?_)
    cases s.obj q with
    | some o => exact .pure o
    | none =>
      refine .bind (confOf_safe (runFile_safe hq (fun p hp hr => ih p hp (by omega)) _ (hc q hq))) (fun c => ?_)
      exact .bind (.modify (fun _ => rfl)) (fun _ => .pure _)

theorem evalFile_safe (hc : ClosedAcyclic w rank items) {n : Nat} {q : String} (hq : q ∈ items) (hn : rank q ≤ n) :
    Safe rank items (GM.evalFile w n q) :=
  runFile_safe hq (fun p hp hr => getItem_safe hc n p hp (by omega)) _ (hc q hq)

theorem each_safe {refresh : String → GM V Unit} (xs : List String)
    (h : ∀ x ∈ xs, Safe rank items (refresh x)) : Safe rank items (GM.each refresh xs) := by
  induction xs with
  | nil => exact .pure ()
  | cons x xs ih =>
    exact .bind (h x (by simp)) (fun _ => ih (fun y hy => h y (by simp [hy])))

/-- How many of `xs` are not in `done`. -/
def remaining (xs done : List String) : Nat := (xs.filter (fun x => decide (x ∉ done))).length

theorem remaining_lt {xs done todo : List String} {x : String} (hx : x ∈ xs) (hd : x ∉ done) (ht : x ∈ todo) :
    remaining xs (done ++ todo) < remaining xs done := by
  unfold remaining
  induction xs with
  | nil => cases hx
  | cons y ys ih =>
    have hle : ∀ zs : List String, (zs.filter (fun x => decide (x ∉ done ++ todo))).length ≤
        (zs.filter (fun x => decide (x ∉ done))).length := by
      intro zs
      induction zs with
      | nil => simp
      | cons z zs ih =>
        simp only [List.filter_cons]
        by_cases h1 : z ∈ done
        · simp [h1]; simpa using ih
        · by_cases h2 : z ∈ todo
          · simp [h1, h2]; have := ih; simp at this; omega
          · simp [h1, h2]; simpa using ih
    simp only [List.filter_cons]
    by_cases hy : y = x
    · subst hy
      simp only [List.mem_append, hd, ht, or_true, not_true_eq_false, decide_false, Bool.false_eq_true, if_false,
        not_false_eq_true, decide_true, if_true, List.length_cons]
      have := hle ys
      simp only [List.mem_append] at this
      omega
    · have hx' : x ∈ ys := by
        rcases List.mem_cons.1 hx with h | h
        · exact absurd h.symm hy
        · exact h
      have := ih hx'
      by_cases h1 : y ∈ done
      · simp [h1]; simpa using this
      · by_cases h2 : y ∈ todo
        · simp [h1, h2]; have := this; simp at this; omega
        · simp [h1, h2]; simpa using this

theorem loop_safe (hv : VisitsAll w) {refresh : String → GM V Unit} {p : String}
    (hr : ∀ x ∈ items, rank p < rank x → Safe rank items (refresh x)) (n : Nat) :
    ∀ todo done, (∀ x ∈ todo, x ∈ items ∧ rank p < rank x ∧ x ∉ done) → remaining items done ≤ n →
      Safe rank items (GM.dependentsLoop w refresh p n todo done) := by
  induction n with
  | zero =>
    intro todo done ht hn
    unfold GM.dependentsLoop
    cases todo with
    | nil => exact .pure ()
    | cons x xs =>
      obtain ⟨h1, _, h3⟩ := ht x (by simp)
      have := remaining_lt (todo := [x]) h1 h3 (by simp)
      omega
  | succ n ih =>
    intro todo done ht hn
    unfold GM.dependentsLoop
    cases todo with
    | nil => exact .pure ()
    | cons x xs =>
      simp only [List.isEmpty_cons, Bool.false_eq_true, if_false]
      refine .bind .get (fun s => .bind (each_safe _ ?_) (fun _ => .getBind (fun s1 hs1 => ?_)))
      · intro y hy
        obtain ⟨h1, h2, _⟩ := ht y ((hv s _ y).2 hy)
        exact hr y h1 h2
      · split
        · exact .raise (by simp)
        · refine ih _ _ ?_ ?_
          · intro y hy
            obtain ⟨hy1, hy2⟩ := List.mem_filter.1 hy
            obtain ⟨h1, h2⟩ := hs1 p y hy1
            exact ⟨h1, h2, by simpa using hy2⟩
          · obtain ⟨h1, _, h3⟩ := ht x (by simp)
            have := remaining_lt (todo := x :: xs) h1 h3 (by simp)
            omega

theorem remaining_le (xs : List String) : remaining xs [] ≤ xs.length := List.length_filter_le _ _

theorem apply_safe (hv : VisitsAll w) {refresh : String → GM V Unit} {q : String} {n : Nat} (hn : items.length ≤ n)
    (hr : ∀ x ∈ items, rank q < rank x → Safe rank items (refresh x)) (values announced : Dict String V) :
    Safe rank items (GM.applyAndRefresh w refresh n q values announced) := by
  refine .bind .get (fun s => ?_)
  cases s.obj q with
  | none => exact .pure ()
  | some o =>
    refine .bind (.modify (fun _ => rfl)) (fun _ => ?_)
    split
    · exact .raise (by simp)
    · refine .getBind (fun s1 hs1 => loop_safe hv hr n _ _ ?_ (Nat.le_trans (remaining_le items) hn))
      exact fun x hx => ⟨(hs1 q x hx).1, (hs1 q x hx).2, by simp⟩

theorem refresh_safe [BEq V] (hc : ClosedAcyclic w rank items) (hv : VisitsAll w) {N : Nat}
    (hN : ∀ q ∈ items, rank q < N) (n : Nat) :
    ∀ q ∈ items, N + items.length + (N - rank q) ≤ n → Safe rank items (GM.refresh w n q) := by
  induction n with
  | zero => intro q hq h; have := hN q hq; omega
  | succ n ih =>
    intro q hq hn
    have hqN := hN q hq
    have he := evalFile_safe hc (n := n) hq (by omega)
    refine .bind (confOf_safe he) (fun c => .bind he (fun d => ?_))
    split
    · exact .pure ()
    · refine .bind he (fun d => ?_)
      cases c.refresh d with
      | error e => exact .raise (by simp)
      | ok r =>
        refine .bind (.modify (fun _ => rfl)) (fun _ => apply_safe hv (by omega) (fun x hx hr => ?_) _ _)
        have := hN x hx
        exact ih x hx (by omega)

theorem update_safe [BEq V] (hc : ClosedAcyclic w rank items) (hv : VisitsAll w) {N : Nat}
    (hN : ∀ q ∈ items, rank q < N) (n : Nat) (q : String) (hq : q ∈ items)
    (hn : N + items.length + N ≤ n) (d : Option (Dict String V)) (persist : Bool) (kw : Dict String V) :
    Safe rank items (GM.update w n q d persist kw) := by
  have hqN := hN q hq
  refine .bind (confOf_safe (evalFile_safe hc hq (by omega))) (fun c => .bind ?_ (fun b => ?_))
  · cases CMM.determineWouldUpdate c d kw with
    | error e => exact .raise (by simp)
    | ok b => exact .pure b
  · split
    · split
      · exact .raise (by simp)
      · exact .bind (.modify (fun _ => rfl)) (fun _ => apply_safe hv (by omega)
          (fun x hx _ => refresh_safe hc hv hN n x hx (by omega)) _ _)
    · exact .pure ()

theorem reset_safe [BEq V] (hc : ClosedAcyclic w rank items) (hv : VisitsAll w) {N : Nat}
    (hN : ∀ q ∈ items, rank q < N) (n : Nat) (q : String) (hq : q ∈ items)
    (hn : N + items.length + N ≤ n) : Safe rank items (GM.reset w n q) := by
  have hqN := hN q hq
  have he := evalFile_safe hc (n := n) hq (by omega)
  refine .bind he (fun d => .bind (.tryCatch (.bind (confOf_safe he) (fun c => .pure _)) (fun e hne => ?_)) (fun cur => ?_))
  · split
    · exact .pure _
    · exact .raise hne
  · simp only
    have hw : ∀ b : Bool, Safe rank items ((if b = true then do
          M.modify (fun s => { s with conf := setAt s.conf q (some (Conf.ofFile (.item []) d)) })
          GM.applyAndRefresh w (GM.refresh w n) n q d d
        else pure ()) : GM V Unit) := by
      intro b
      split
      · exact .bind (.modify (fun _ => rfl)) (fun _ => apply_safe hv (by omega)
          (fun x hx _ => refresh_safe hc hv hN n x hx (by omega)) _ _)
      · exact .pure ()
    cases cur with
    | none => exact .bind (.pure _) hw
    | some c =>
      refine .bind ?_ hw
      cases CMM.determineWouldUpdate c none d with
      | error e => exact .raise (by simp)
      | ok b => exact .pure b

end

/-! More calls allowed make no difference once they suffice. -/

/-- `m'` does what `m` does, except where `m` ran out of calls. -/
def Extends {α : Type} (m m' : GM V α) : Prop := ∀ s, (m s).1 ≠ .error .fuel → m' s = m s

namespace Extends
variable {α β : Type}

theorem refl (m : GM V α) : Extends m m := fun _ _ => rfl
theorem fuel (m : GM V α) : Extends (M.raise .fuel) m := fun _ h => absurd rfl h

theorem bind {m m' : GM V α} {f f' : α → GM V β} (hm : Extends m m') (hf : ∀ a, Extends (f a) (f' a)) :
    Extends (m >>= f) (m' >>= f') := by
  intro s h
  rw [M.bind_run] at h ⊢
  rw [M.bind_run]
  cases hr : m s with
  | mk r s' =>
    rw [hr] at h
    have hm' : m' s = (r, s') := by
      rw [← hr]
      refine hm s ?_
      rw [hr]
      rintro rfl
      exact h rfl
    rw [hm']
    cases r with
    | ok a => exact hf a s' h
    | error e => rfl

theorem tryCatch {m m' : GM V α} {f : Stop → GM V α} (hm : Extends m m') (hf : f .fuel = M.raise .fuel) :
    Extends (M.tryCatch m f) (M.tryCatch m' f) := by
  intro s h
  unfold M.tryCatch at h ⊢
  cases hr : m s with
  | mk r s' =>
    rw [hr] at h
    have hm' : m' s = (r, s') := by
      rw [← hr]
      refine hm s ?_
      rw [hr]
      rintro rfl
      simp only [hf] at h
      exact h rfl
    rw [hm']

end Extends

section
variable {w : World V}

theorem runFile_extends {get get' : String → GM V (Dict String V)} (h : ∀ p, Extends (get p) (get' p)) (q : String)
    (prog : FileProg V) : Extends (GM.runFile w get q prog) (GM.runFile w get' q prog) := by
  induction prog with
  | done d => exact .refl _
  | raise e => exact .refl _
  | read p a next ih =>
    unfold GM.runFile
    refine .bind (.refl _) (fun _ => .bind (h p) (fun o => ?_))
    cases w.attr p o a with
    | error e => exact .refl _
    | ok v => exact ih v

theorem confOf_extends {run run' : GM V (Dict String V)} (h : Extends run run') (q : String) :
    Extends (GM.confOf run q) (GM.confOf run' q) := by
  refine .bind (.refl _) (fun s => ?_)
  cases s.conf q with
  | some c => exact .refl _
  | none => exact .bind h (fun _ => .refl _)

theorem getItem_extends (n : Nat) : ∀ q, Extends (GM.getItem w n q) (GM.getItem w (n + 1) q) := by
  induction n with
  | zero => exact fun q => .fuel _
  | succ n ih =>
    intro q
    refine .bind (.refl _) (fun s => ?_)
    cases s.obj q with
    | some o => exact .refl _
    | none => exact .bind (confOf_extends (runFile_extends ih q _) q) (fun _ => .refl _)

theorem evalFile_extends (n : Nat) (q : String) : Extends (GM.evalFile w n q) (GM.evalFile w (n + 1) q) :=
  runFile_extends (getItem_extends n) q _

theorem each_extends {f f' : String → GM V Unit} (h : ∀ q, Extends (f q) (f' q)) (xs : List String) :
    Extends (GM.each f xs) (GM.each f' xs) := by
  induction xs with
  | nil => exact .refl _
  | cons x xs ih => exact .bind (h x) (fun _ => ih)

theorem loop_extends {f f' : String → GM V Unit} (h : ∀ q, Extends (f q) (f' q)) (p : String) (n : Nat) :
    ∀ todo done, Extends (GM.dependentsLoop w f p n todo done) (GM.dependentsLoop w f' p (n + 1) todo done) := by
  induction n with
  | zero =>
    intro todo done
    unfold GM.dependentsLoop
    split
    · exact .refl _
    · exact .fuel _
  | succ n ih =>
    intro todo done
    unfold GM.dependentsLoop
    split
    · exact .refl _
    · refine .bind (.refl _) (fun s => .bind (each_extends h _) (fun _ => .bind (.refl _) (fun s1 => ?_)))
      simp only
      split
      · exact .refl _
      · exact ih _ _

theorem apply_extends {f f' : String → GM V Unit} (h : ∀ q, Extends (f q) (f' q)) (n : Nat) (q : String)
    (values announced : Dict String V) :
    Extends (GM.applyAndRefresh w f n q values announced) (GM.applyAndRefresh w f' (n + 1) q values announced) := by
  refine .bind (.refl _) (fun s => ?_)
  cases s.obj q with
  | none => exact .refl _
  | some o =>
    refine .bind (.refl _) (fun _ => ?_)
    split
    · exact .refl _
    · exact .bind (.refl _) (fun s1 => loop_extends h q n _ _)

theorem refresh_extends [BEq V] (n : Nat) : ∀ q, Extends (GM.refresh w n q) (GM.refresh w (n + 1) q) := by
  induction n with
  | zero => exact fun q => .fuel _
  | succ n ih =>
    intro q
    have he := evalFile_extends (w := w) n q
    refine .bind (confOf_extends he q) (fun c => .bind he (fun d => ?_))
    split
    · exact .refl _
    · refine .bind he (fun d => ?_)
      cases c.refresh d with
      | error e => exact .refl _
      | ok r => exact .bind (.refl _) (fun _ => apply_extends ih n q _ _)

theorem op_extends [BEq V] (n : Nat) (o : GOp V) : Extends (GM.op w n o) (GM.op w (n + 1) o) := by
  cases o with
  | get q => exact .bind (getItem_extends n q) (fun _ => .refl _)
  | update q d persist kw =>
    refine .bind (confOf_extends (evalFile_extends n q) q) (fun c => .bind (.refl _) (fun b => ?_))
    split
    · split
      · exact .refl _
      · exact .bind (.refl _) (fun _ => apply_extends (refresh_extends n) n q _ _)
    · exact .refl _
  | refresh q => exact refresh_extends n q
  | reset q =>
    have he := evalFile_extends (w := w) n q
    refine .bind he (fun d => .bind (.tryCatch (.bind (confOf_extends he q) (fun c => .refl _)) rfl) (fun cur => ?_))
    simp only
    have hw : ∀ b : Bool, Extends ((if b = true then do
          M.modify (fun s => { s with conf := setAt s.conf q (some (Conf.ofFile (.item []) d)) })
          GM.applyAndRefresh w (GM.refresh w n) n q d d
        else pure ()) : GM V Unit) (if b = true then do
          M.modify (fun s => { s with conf := setAt s.conf q (some (Conf.ofFile (.item []) d)) })
          GM.applyAndRefresh w (GM.refresh w (n + 1)) (n + 1) q d d
        else pure ()) := by
      intro b
      split
      · exact .bind (.refl _) (fun _ => apply_extends (refresh_extends n) n q _ _)
      · exact .refl _
    cases cur with
    | none => exact .bind (.refl _) hw
    | some c => exact .bind (.refl _) hw
  | used d o => exact .refl _

end

theorem exists_bound (rank : String → Nat) (items : List String) : ∃ N, ∀ q ∈ items, rank q < N := by
  induction items with
  | nil => exact ⟨0, by simp⟩
  | cons x xs ih =>
    obtain ⟨N, h⟩ := ih
    refine ⟨N + rank x + 1, fun q hq => ?_⟩
    rcases List.mem_cons.1 hq with rfl | hq
    · omega
    · have := h q hq; omega

/-- C29. In a project without circles, in any state whose records have no circles, every operation ends:
there is a number of calls that suffices, and with more the operation does the same. -/
theorem C29_terminates [BEq V] (w : World V) (rank : String → Nat) (items : List String)
    (hc : ClosedAcyclic w rank items) (hv : VisitsAll w) (s : GS V) (hs : RecordsAcyclic rank items s)
    (o : GOp V) (ho : Within items o) :
    ∃ n, (GM.op w n o s).1 ≠ .error .fuel ∧ ∀ m, n ≤ m → GM.op w m o s = GM.op w n o s := by
  obtain ⟨N, hN⟩ := exists_bound rank items
  have hsafe : (GM.op w (N + items.length + N) o s).1 ≠ .error .fuel := by
    cases o with
    | get q =>
      have := hN q ho
      exact ((getItem_safe hc _ q ho (by omega)).bind (fun _ => .pure ()) s hs).2
    | update q d persist kw => exact (update_safe hc hv hN _ q ho (by omega) d persist kw s hs).2
    | refresh q => exact (refresh_safe hc hv hN _ q ho (by omega) s hs).2
    | reset q => exact (reset_safe hc hv hN _ q ho (by omega) s hs).2
    | used d o => simp [GM.op]
  refine ⟨_, hsafe, fun m hm => ?_⟩
  induction hm with
  | refl => rfl
  | step hm ih => rw [op_extends _ o s (by rw [ih]; exact hsafe), ih]

/-- C29. The records stay without circles, whatever happens. -/
theorem C29_records [BEq V] (w : World V) (rank : String → Nat) (items : List String)
    (hc : ClosedAcyclic w rank items) (hv : VisitsAll w) (s : GS V) (hs : RecordsAcyclic rank items s)
    (o : GOp V) (ho : Within items o) (hu : ∀ d x, o = .used d x → d ∈ items ∧ rank x < rank d) :
    ∃ n, ∀ m, n ≤ m → RecordsAcyclic rank items (GM.op w m o s).2 := by
  obtain ⟨N, hN⟩ := exists_bound rank items
  refine ⟨N + items.length + N, fun m hm => ?_⟩
  cases o with
  | get q =>
    have := hN q ho
    exact ((getItem_safe hc m q ho (by omega)).bind (fun _ => .pure ()) s hs).1
  | update q d persist kw => exact (update_safe hc hv hN m q ho (by omega) d persist kw s hs).1
  | refresh q => exact (refresh_safe hc hv hN m q ho (by omega) s hs).1
  | reset q => exact (reset_safe hc hv hN m q ho (by omega) s hs).1
  | used d o =>
    obtain ⟨h1, h2⟩ := hu d o rfl
    intro x y hy
    have hy : y ∈ (s.addForced d o).forced x := hy
    unfold GS.addForced at hy
    split at hy
    · exact hs x y hy
    · split at hy
      · exact hs x y hy
      · by_cases hx : x = o
        · subst hx
          simp only [setAt_same, List.mem_append, List.mem_singleton] at hy
          rcases hy with hy | rfl
          · exact hs x y hy
          · exact ⟨h1, h2⟩
        · simp only [setAt_ne _ _ hx] at hy
          exact hs x y hy

/-- Not stopped by the guard. -/
def Unguarded {α : Type} (m : GM V α) : Prop := ∀ s, (m s).1 ≠ .error .cannotResolve

namespace Unguarded
variable {α β : Type}
theorem pure (a : α) : Unguarded (Pure.pure a : GM V α) := fun s => by simp
theorem raise {e : Stop} (h : e ≠ .cannotResolve) : Unguarded (M.raise e : GM V α) := fun s => by simpa using h
theorem get : Unguarded (M.get : GM V (GS V)) := fun s => by simp
theorem modify (f : GS V → GS V) : Unguarded (M.modify f : GM V Unit) := fun s => by simp
theorem bind {m : GM V α} {f : α → GM V β} (hm : Unguarded m) (hf : ∀ a, Unguarded (f a)) : Unguarded (m >>= f) := by
  intro s
  have h := hm s
  rw [M.bind_run]
  cases hr : m s with
  | mk r s' =>
    rw [hr] at h
    cases r with
    | ok a => exact hf a s'
    | error e => simpa using h
theorem tryCatch {m : GM V α} {f : Stop → GM V α} (hm : Unguarded m) (hf : ∀ e, e ≠ .cannotResolve → Unguarded (f e)) :
    Unguarded (M.tryCatch m f) := by
  intro s
  have h := hm s
  unfold M.tryCatch
  cases hr : m s with
  | mk r s' =>
    rw [hr] at h
    cases r with
    | ok a => simp
    | error e => exact hf e (fun he => h (by rw [he])) s'
end Unguarded

theorem sameSet_fresh {todo done xs : List String} (h : todo.isEmpty = false) :
    GM.sameSet todo (xs.filter (fun x => decide (x ∉ done ++ todo))) = false := by
  cases todo with
  | nil => cases h
  | cons x todo => simp [GM.sameSet]

section
variable {w : World V}

theorem runFile_unguarded {get : String → GM V (Dict String V)} (h : ∀ p, Unguarded (get p)) (q : String)
    (prog : FileProg V) : Unguarded (GM.runFile w get q prog) := by
  induction prog with
  | done d => exact .pure d
  | raise e => exact .raise (by simp)
  | read p a next ih =>
    unfold GM.runFile
    refine .bind (.modify _) (fun _ => .bind (h p) (fun o => ?_))
    cases w.attr p o a with
    | error e => exact .raise (by simp)
    | ok v => exact ih v

theorem confOf_unguarded {run : GM V (Dict String V)} (h : Unguarded run) (q : String) :
    Unguarded (GM.confOf run q) := by
  refine .bind .get (fun s => ?_)
  cases s.conf q with
  | some c => exact .pure c
  | none => exact .bind h (fun _ => .bind (.modify _) (fun _ => .pure _))

theorem getItem_unguarded (n : Nat) : ∀ q, Unguarded (GM.getItem w n q) := by
  induction n with
  | zero => exact fun q => .raise (by simp)
  | succ n ih =>
    intro q
    refine .bind .get (fun s => ?_)
    cases s.obj q with
    | some o => exact .pure o
    | none =>
      exact .bind (confOf_unguarded (runFile_unguarded ih q _) q) (fun _ => .bind (.modify _) (fun _ => .pure _))

theorem evalFile_unguarded (n : Nat) (q : String) : Unguarded (GM.evalFile w n q) :=
  runFile_unguarded (getItem_unguarded n) q _

theorem each_unguarded {f : String → GM V Unit} (h : ∀ q, Unguarded (f q)) (xs : List String) :
    Unguarded (GM.each f xs) := by
  induction xs with
  | nil => exact .pure ()
  | cons x xs ih => exact .bind (h x) (fun _ => ih)

theorem loop_unguarded {f : String → GM V Unit} (h : ∀ q, Unguarded (f q)) (p : String) (n : Nat) :
    ∀ todo done, Unguarded (GM.dependentsLoop w f p n todo done) := by
  induction n with
  | zero =>
    intro todo done
    unfold GM.dependentsLoop
    split
    · exact .pure ()
    · exact .raise (by simp)
  | succ n ih =>
    intro todo done
    unfold GM.dependentsLoop
    split
    · exact .pure ()
    · next ht =>
      refine .bind .get (fun s => .bind (each_unguarded h _) (fun _ => .bind .get (fun s1 => ?_)))
      simp only [sameSet_fresh (by simpa using ht)]
      exact ih _ _

theorem apply_unguarded {f : String → GM V Unit} (h : ∀ q, Unguarded (f q)) (n : Nat) (q : String)
    (values announced : Dict String V) : Unguarded (GM.applyAndRefresh w f n q values announced) := by
  refine .bind .get (fun s => ?_)
  cases s.obj q with
  | none => exact .pure ()
  | some o =>
    refine .bind (.modify _) (fun _ => ?_)
    split
    · exact .raise (by simp)
    · exact .bind .get (fun s1 => loop_unguarded h q n _ _)

theorem refresh_unguarded [BEq V] (n : Nat) : ∀ q, Unguarded (GM.refresh w n q) := by
  induction n with
  | zero => exact fun q => .raise (by simp)
  | succ n ih =>
    intro q
    have he := evalFile_unguarded (w := w) n q
    refine .bind (confOf_unguarded he q) (fun c => .bind he (fun d => ?_))
    split
    · exact .pure ()
    · refine .bind he (fun d => ?_)
      cases c.refresh d with
      | error e => exact .raise (by simp)
      | ok r => exact .bind (.modify _) (fun _ => apply_unguarded ih n q _ _)

end

/-- C29. The exception 'cannot resolve config dependencies' is never raised: not in any state, with any
files and any records, circles included. -/
theorem C29_guard_unreachable [BEq V] (w : World V) (n : Nat) (o : GOp V) (s : GS V) :
    (GM.op w n o s).1 ≠ .error .cannotResolve := by
  cases o with
  | get q => exact Unguarded.bind (getItem_unguarded n q) (fun _ => .pure ()) s
  | update q d persist kw =>
    refine Unguarded.bind (confOf_unguarded (evalFile_unguarded n q) q) (fun c => .bind ?_ (fun b => ?_)) s
    · cases CMM.determineWouldUpdate c d kw with
      | error e => exact .raise (by simp)
      | ok b => exact .pure b
    · split
      · split
        · exact .raise (by simp)
        · exact .bind (.modify _) (fun _ => apply_unguarded (refresh_unguarded n) n q _ _)
      · exact .pure ()
  | refresh q => exact refresh_unguarded n q s
  | reset q =>
    have he := evalFile_unguarded (w := w) n q
    refine Unguarded.bind he (fun d => .bind (.tryCatch (.bind (confOf_unguarded he q) (fun c => .pure _))
      (fun e hne => ?_)) (fun cur => ?_)) s
    · split
      · exact .pure _
      · exact .raise hne
    · simp only
      have hw : ∀ b : Bool, Unguarded ((if b = true then do
            M.modify (fun s => { s with conf := setAt s.conf q (some (Conf.ofFile (.item []) d)) })
            GM.applyAndRefresh w (GM.refresh w n) n q d d
          else pure ()) : GM V Unit) := by
        intro b
        split
        · exact .bind (.modify _) (fun _ => apply_unguarded (refresh_unguarded n) n q _ _)
        · exact .pure ()
      cases cur with
      | none => exact .bind (.pure _) hw
      | some c =>
        refine .bind ?_ hw
        cases CMM.determineWouldUpdate c none d with
        | error e => exact .raise (by simp)
        | ok b => exact .pure b
  | used d o => simp [GM.op]

example : ClosedAcyclic demoWorld demoRank ["m.a", "m.b", "m.c", "m.d"] ∧
    RecordsAcyclic (V := Nat) demoRank ["m.a", "m.b", "m.c", "m.d"] GS.new := by
  refine ⟨fun q hq p h => ⟨?_, demoWorld_acyclic q p h⟩, fun p q h => by cases h⟩
  have := demoWorld_acyclic q p h
  unfold demoWorld at h
  simp only at h
  split at h
  · cases h
  · split at h
    · cases h with
      | here => simp
      | later h => cases h
    · split at h
      · cases h with
        | here => simp
        | later h => cases h with
          | here => simp
          | later h => cases h
      · split at h
        · cases h with
          | here => simp
          | later h => simp only at h; split at h <;> cases h
        · cases h

end Verif.Props
