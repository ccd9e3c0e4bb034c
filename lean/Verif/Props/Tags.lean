import Verif.Model.Tags
import Verif.Props.SectionPath
import Verif.Props.Typo
import Verif.Lemmas.Files

/-
Property theorems about `_section_path_str` of objects: C109.
-/

namespace Verif.Props
open Verif.Py
open Verif.Model
open Verif.Model.Tags

/-- The full path of an item: the name of the manager, a dot, and the path. -/
def managedPath (name p : String) : String := name ++ "." ++ p

/-- An operation that gives every item an object of its own and calls views under the path of the item itself: no objects in definitions,
classes make new objects, and a view that is called is that of an item or of a method the item's own object has. -/
def Tags.Op.Own (w : Tags.World) (s : Tags.State) : Tags.Op → Prop
  | .registerObject _ _ _ => False
  | .get _ _ _ made _ => ∀ o, made ≠ .ok (some o)
  | .call path made _ canTagNew =>
    (∀ o, made ≠ .ok (some o)) ∧
    ∀ m rest r p attrs o s', (SectionPath.mk path).sections = m :: rest → s.active m = some r →
      findItem (fun p => (s.reg r p).isSome) [] rest = some (p, attrs) →
      Tags.getItem w r p false made canTagNew s = (.ok o, s') →
      (∀ o', Tags.walk s'.attr (.obj o) attrs = some (.obj o') → attrs = []) ∧
      (∀ o', Tags.walk s'.attr (.obj o) attrs = some (.method o') → o' = o ∧ attrs.length = 1)
  | _ => True

/-- The states after such operations. -/
inductive Tags.Reach (w : Tags.World) : Tags.State → Prop where
  | start : Tags.Reach w .start
  | step {s : Tags.State} (op : Tags.Op) : Tags.Reach w s → Tags.Op.Own w s op → Tags.Reach w (Tags.step w s op)

/-- What holds in these states. -/
structure Tags.Inv (w : Tags.World) (s : Tags.State) : Prop where
  tagged : ∀ r p o, s.loaded r p = some o → s.tag o = some (managedPath (w.name r) p)
  once : ∀ r p r' p' o, s.loaded r p = some o → s.loaded r' p' = some o → r = r' ∧ p = p'
  own : ∀ r p r' p' o, s.reg r p = some (.inst o) → s.loaded r' p' = some o → r = r' ∧ p = p'
  inst : ∀ r p r' p' o, s.reg r p = some (.inst o) → s.reg r' p' = some (.inst o) → r = r' ∧ p = p'
  old : ∀ r p o, s.loaded r p = some o → o < s.next
  oldReg : ∀ r p o, s.reg r p = some (.inst o) → o < s.next
  act : ∀ m r, s.active m = some r → w.name r = m

theorem joinSP_full (a p : String) : (SectionPath.joinSP ⟨a⟩ ⟨p⟩).pathStr = managedPath a p := by
  show join '.' (split '.' a ++ split '.' p) = _
  rw [← split_dot_append, join_split]
  rfl

/-- The object is tagged and kept. -/
def Tags.kept (s : Tags.State) (r : Nat) (p : String) (o : Nat) (path : String) : Tags.State :=
  { s with tag := fun o' => if o' = o then some path else s.tag o',
           loaded := fun r' p' => if r' = r ∧ p' = p then some o else s.loaded r' p' }

theorem Tags.getItem_cases (w : Tags.World) (r : Nat) (p : String) (ins : Bool) (made : Except PyErr (Option Nat)) (ct : Bool)
    (s : Tags.State) (hm : ∀ o, made ≠ .ok (some o)) :
    ((Tags.getItem w r p ins made ct s).2 = s ∧ (∀ o, (Tags.getItem w r p ins made ct s).1 = .ok o → s.loaded r p = some o)) ∨
    (∃ b, Tags.getItem w r p ins made ct s = (.error .attributeError, (Tags.fresh b s).2)) ∨
    (∃ o s1, s.loaded r p = none ∧ ((s1 = s ∧ s.reg r p = some (.inst o)) ∨ ∃ b, s1 = (Tags.fresh b s).2 ∧ o = s.next) ∧
      Tags.getItem w r p ins made ct s = (.ok o, Tags.kept s1 r p o (managedPath (w.name r) p))) := by
  unfold Tags.getItem
  rw [M.bind_ok (M.get_run s)]
  cases hreg : s.reg r p with
  | none => exact .inl ⟨rfl, fun o h => by cases h⟩
  | some kind =>
    cases hl : s.loaded r p with
    | some o => exact .inl ⟨rfl, fun o' h => by injection h with h; rw [h]⟩
    | none =>
      cases made with
      | error e => exact .inl ⟨rfl, fun o h => by cases h⟩
      | ok again =>
        cases again with
        | some o => exact absurd rfl (hm o)
        | none =>
          dsimp only
          by_cases hk : kind = .func ∨ (kind = .klass ∧ ins = true)
          · rw [if_pos hk]
            refine .inr (.inr ⟨s.next, (Tags.fresh true s).2, rfl, .inr ⟨true, rfl, rfl⟩, ?_⟩)
            simp only [M.bind_run, Tags.fresh, Tags.addFull, Tags.setTag, Tags.keep, M.modify_run, if_true, joinSP_full]
            rfl
          · rw [if_neg hk]
            cases ct with
            | false =>
              cases kind with
              | inst o =>
                exact .inl ⟨rfl, fun o h => by cases h⟩
              | func => exact absurd (.inl rfl) hk
              | klass => exact .inr (.inl ⟨false, rfl⟩)
            | true =>
              cases kind with
              | inst o =>
                refine .inr (.inr ⟨o, s, rfl, .inl ⟨rfl, rfl⟩, ?_⟩)
                simp only [M.bind_run, Tags.addFull, Tags.setTag, Tags.keep, M.modify_run, if_true, joinSP_full, M.pure_run]
                rfl
              | func => exact absurd (.inl rfl) hk
              | klass =>
                refine .inr (.inr ⟨s.next, (Tags.fresh false s).2, rfl, .inr ⟨false, rfl, rfl⟩, ?_⟩)
                simp only [M.bind_run, Tags.fresh, Tags.construct, Tags.addFull, Tags.setTag, Tags.keep, M.modify_run, if_true, joinSP_full]
                rfl

theorem Tags.Inv.fresh {w : Tags.World} {s : Tags.State} (h : Tags.Inv w s) (b : Bool) : Tags.Inv w (Tags.fresh b s).2 where
  tagged := h.tagged
  once := h.once
  own := h.own
  inst := h.inst
  old := fun r p o ho => Nat.lt_succ_of_lt (h.old r p o ho)
  oldReg := fun r p o ho => Nat.lt_succ_of_lt (h.oldReg r p o ho)
  act := h.act

/-- Keeping an object that is not that of another item. -/
theorem Tags.Inv.kept {w : Tags.World} {s : Tags.State} (h : Tags.Inv w s) (r : Nat) (p : String) (o : Nat)
    (hlt : o < s.next) (hl : ∀ r' p', s.loaded r' p' = some o → r' = r ∧ p' = p)
    (hr : ∀ r' p', s.reg r' p' = some (.inst o) → r' = r ∧ p' = p) :
    Tags.Inv w (Tags.kept s r p o (managedPath (w.name r) p)) where
  tagged := by
    intro r' p' o' ho
    by_cases hc : r' = r ∧ p' = p
    · have ho : (if r' = r ∧ p' = p then some o else s.loaded r' p') = some o' := ho
      rw [if_pos hc] at ho
      injection ho with ho
      show (if o' = o then _ else _) = _
      rw [if_pos ho.symm, hc.1, hc.2]
    · have ho : (if r' = r ∧ p' = p then some o else s.loaded r' p') = some o' := ho
      rw [if_neg hc] at ho
      have : o' ≠ o := fun e => hc (hl r' p' (e ▸ ho))
      show (if o' = o then _ else _) = _
      rw [if_neg this]
      exact h.tagged _ _ _ ho
  once := by
    intro r1 p1 r2 p2 o' h1 h2
    have h1 : (if r1 = r ∧ p1 = p then some o else s.loaded r1 p1) = some o' := h1
    have h2 : (if r2 = r ∧ p2 = p then some o else s.loaded r2 p2) = some o' := h2
    by_cases c1 : r1 = r ∧ p1 = p
    · rw [if_pos c1] at h1
      injection h1 with h1
      by_cases c2 : r2 = r ∧ p2 = p
      · exact ⟨c1.1.trans c2.1.symm, c1.2.trans c2.2.symm⟩
      · rw [if_neg c2] at h2
        exact absurd (hl r2 p2 (h1 ▸ h2)) c2
    · rw [if_neg c1] at h1
      by_cases c2 : r2 = r ∧ p2 = p
      · rw [if_pos c2] at h2
        injection h2 with h2
        exact absurd (hl r1 p1 (h2 ▸ h1)) c1
      · rw [if_neg c2] at h2
        exact h.once _ _ _ _ _ h1 h2
  own := by
    intro r1 p1 r2 p2 o' h1 h2
    have h2 : (if r2 = r ∧ p2 = p then some o else s.loaded r2 p2) = some o' := h2
    by_cases c2 : r2 = r ∧ p2 = p
    · rw [if_pos c2] at h2
      injection h2 with h2
      have := hr r1 p1 (h2 ▸ h1)
      exact ⟨this.1.trans c2.1.symm, this.2.trans c2.2.symm⟩
    · rw [if_neg c2] at h2
      exact h.own _ _ _ _ _ h1 h2
  inst := h.inst
  old := by
    intro r' p' o' ho
    have ho : (if r' = r ∧ p' = p then some o else s.loaded r' p') = some o' := ho
    by_cases hc : r' = r ∧ p' = p
    · rw [if_pos hc] at ho
      injection ho with ho
      exact ho ▸ hlt
    · rw [if_neg hc] at ho
      exact h.old _ _ _ ho
  oldReg := h.oldReg
  act := h.act

/-- Getting an item keeps the invariant, and what it gives is kept under the path. -/
theorem Tags.Inv.getItem {w : Tags.World} {s : Tags.State} (h : Tags.Inv w s) (r : Nat) (p : String) (ins : Bool)
    (made : Except PyErr (Option Nat)) (ct : Bool) (hm : ∀ o, made ≠ .ok (some o)) :
    Tags.Inv w (Tags.getItem w r p ins made ct s).2 ∧
    (∀ o, (Tags.getItem w r p ins made ct s).1 = .ok o → (Tags.getItem w r p ins made ct s).2.loaded r p = some o) := by
  rcases Tags.getItem_cases w r p ins made ct s hm with ⟨h1, h2⟩ | ⟨b, h1⟩ | ⟨o, s1, hn, hs, h1⟩
  · rw [h1]
    exact ⟨h, h2⟩
  · rw [h1]
    exact ⟨h.fresh b, fun o ho => by cases ho⟩
  · rw [h1]
    refine ⟨?_, fun o' ho => ?_⟩
    · rcases hs with ⟨hs, hr⟩ | ⟨b, hs, ho⟩
      · subst hs
        refine h.kept r p o (h.oldReg _ _ _ hr) (fun r' p' hl => ?_) (fun r' p' hr' => ?_)
        · have := h.own _ _ _ _ _ hr hl
          exact ⟨this.1.symm, this.2.symm⟩
        · exact h.inst _ _ _ _ _ hr' hr
      · subst hs ho
        refine (h.fresh b).kept r p _ (Nat.lt_succ_self _) (fun r' p' hl => ?_) (fun r' p' hr => ?_)
        · exact absurd (h.old _ _ _ hl) (Nat.lt_irrefl _)
        · exact absurd (h.oldReg _ _ _ hr) (Nat.lt_irrefl _)
    · injection ho with ho
      show (if r = r ∧ p = p then some o else _) = _
      rw [if_pos ⟨rfl, rfl⟩, ho]

/-- The path found is the beginning of what was asked for, the rest follows it. -/
theorem Tags.findItem_some {isItem : String → Bool} {done rest : List String} {p : String} {attrs : List String}
    (h : Tags.findItem isItem done rest = some (p, attrs)) :
    ∃ q, q ≠ [] ∧ p = join '.' q ∧ q ++ attrs = done ++ rest := by
  induction rest generalizing done with
  | nil => cases h
  | cons x rest ih =>
    unfold Tags.findItem at h
    by_cases hc : isItem (join '.' (done ++ [x])) = true
    · rw [if_pos hc] at h
      injection h with h
      injection h with h1 h2
      exact ⟨done ++ [x], by simp, h1.symm, by rw [h2]; simp⟩
    · rw [if_neg hc] at h
      obtain ⟨q, hq, hp, ha⟩ := ih h
      exact ⟨q, hq, hp, by rw [ha]; simp⟩

theorem Tags.setTag_same {w : Tags.World} {s : Tags.State} (h : Tags.Inv w s) (ct : Bool) (r : Nat) (p : String) (o : Nat) (path : String)
    (hl : s.loaded r p = some o) (hp : path = managedPath (w.name r) p) : Tags.Inv w (Tags.setTag ct o path s).2 := by
  cases ct with
  | false => exact h
  | true =>
    have : (Tags.setTag true o path s).2 = s := by
      show ({ s with tag := fun o' => if o' = o then some path else s.tag o' } : Tags.State) = s
      have : (fun o' => if o' = o then some path else s.tag o') = s.tag := by
        funext o'
        by_cases hc : o' = o
        · rw [if_pos hc, hc, h.tagged _ _ _ hl, hp]
        · rw [if_neg hc]
      rw [this]
    rw [this]
    exact h

theorem join_cons_full (m : String) {q : List String} (hq : q ≠ []) : join '.' (m :: q) = managedPath m (join '.' q) := by
  have h := Verif.Model.join_append '.' (as := [m]) (by simp) hq
  rw [join_singleton] at h
  exact h

/-- Each operation keeps the invariant. -/
theorem Tags.Inv.step {w : Tags.World} {s : Tags.State} (h : Tags.Inv w s) (op : Tags.Op) (ho : Tags.Op.Own w s op) :
    Tags.Inv w (Tags.step w s op) := by
  cases op with
  | load r =>
    refine { h with act := ?_ }
    intro m r' hm
    have hm : (if m = w.name r then some r else s.active m) = some r' := hm
    by_cases hc : m = w.name r
    · rw [if_pos hc] at hm
      injection hm with hm
      rw [hc, hm]
    · rw [if_neg hc] at hm
      exact h.act _ _ hm
  | forget name =>
    refine { h with act := ?_ }
    intro m r' hm
    have hm : (if m = name then none else s.active m) = some r' := hm
    by_cases hc : m = name
    · rw [if_pos hc] at hm
      cases hm
    · rw [if_neg hc] at hm
      exact h.act _ _ hm
  | register r p isClass =>
    have key : ∀ r' p' o, (s.put r p (if isClass then .klass else .func)).reg r' p' = some (.inst o) → s.reg r' p' = some (.inst o) := by
      intro r' p' o hr
      have hr : (if r' = r ∧ p' = p then some (if isClass then Tags.Kind.klass else .func) else s.reg r' p') = some (.inst o) := hr
      by_cases hc : r' = r ∧ p' = p
      · rw [if_pos hc] at hr
        cases isClass <;> cases hr
      · rw [if_neg hc] at hr
        exact hr
    exact { h with own := fun r1 p1 r2 p2 o h1 h2 => h.own _ _ _ _ _ (key _ _ _ h1) h2,
                   inst := fun r1 p1 r2 p2 o h1 h2 => h.inst _ _ _ _ _ (key _ _ _ h1) (key _ _ _ h2),
                   oldReg := fun r1 p1 o h1 => h.oldReg _ _ _ (key _ _ _ h1) }
  | registerName r p =>
    have key : ∀ r' p' o, (((Tags.fresh false s).2).put r p (.inst s.next)).reg r' p' = some (.inst o) →
        (r' = r ∧ p' = p ∧ o = s.next) ∨ s.reg r' p' = some (.inst o) := by
      intro r' p' o hr
      have hr : (if r' = r ∧ p' = p then some (Tags.Kind.inst s.next) else s.reg r' p') = some (.inst o) := hr
      by_cases hc : r' = r ∧ p' = p
      · rw [if_pos hc] at hr
        injection hr with hr
        injection hr with hr
        exact .inl ⟨hc.1, hc.2, hr.symm⟩
      · rw [if_neg hc] at hr
        exact .inr hr
    have hf := h.fresh false
    exact { hf with
      own := fun r1 p1 r2 p2 o h1 h2 => by
        rcases key _ _ _ h1 with ⟨_, _, e⟩ | h1
        · subst e
          exact absurd (h.old _ _ _ h2) (Nat.lt_irrefl _)
        · exact h.own _ _ _ _ _ h1 h2
      inst := fun r1 p1 r2 p2 o h1 h2 => by
        rcases key _ _ _ h1 with ⟨a1, b1, e1⟩ | h1
        · rcases key _ _ _ h2 with ⟨a2, b2, _⟩ | h2
          · exact ⟨a1.trans a2.symm, b1.trans b2.symm⟩
          · subst e1
            exact absurd (h.oldReg _ _ _ h2) (Nat.lt_irrefl _)
        · rcases key _ _ _ h2 with ⟨_, _, e2⟩ | h2
          · subst e2
            exact absurd (h.oldReg _ _ _ h1) (Nat.lt_irrefl _)
          · exact h.inst _ _ _ _ _ h1 h2
      oldReg := fun r1 p1 o h1 => by
        rcases key _ _ _ h1 with ⟨_, _, e⟩ | h1
        · subst e
          exact Nat.lt_succ_self _
        · exact Nat.lt_succ_of_lt (h.oldReg _ _ _ h1) }
  | registerObject r p o => exact absurd ho id
  | get r p ins made ct => exact (h.getItem r p ins made ct ho).1
  | change attr => exact { h with }
  | call path made ct ctn =>
    obtain ⟨hm, hown⟩ := ho
    show Tags.Inv w (Tags.call w path made ct ctn s).2
    unfold Tags.call
    rw [M.bind_ok (M.get_run s)]
    cases hs : (SectionPath.mk path).sections with
    | nil => exact h
    | cons m rest =>
      dsimp only
      cases ha : s.active m with
      | none => exact h
      | some r =>
        dsimp only
        cases hf : Tags.findItem (fun p => (s.reg r p).isSome) [] rest with
        | none => exact h
        | some e =>
          obtain ⟨p, attrs⟩ := e
          dsimp only
          obtain ⟨hi, hl⟩ := h.getItem r p false made ctn hm
          cases hg : Tags.getItem w r p false made ctn s with
          | mk res s' =>
            rw [hg] at hi hl
            cases res with
            | error e =>
              rw [M.bind_error hg]
              exact hi
            | ok o =>
              rw [M.bind_ok hg, M.bind_ok (M.get_run s')]
              obtain ⟨ho1, ho2⟩ := hown m rest r p attrs o s' hs ha hf hg
              obtain ⟨q, hq, hp, hqa⟩ := Tags.findItem_some hf
              have hname := h.act _ _ ha
              have hlo := hl o rfl
              have hpath : path = join '.' (m :: rest) := by
                rw [← hs]
                exact (join_split '.' path).symm
              cases hw : Tags.walk s'.attr (.obj o) attrs with
              | none => exact hi
              | some t =>
                cases t with
                | other => exact hi
                | obj o' =>
                  dsimp only
                  have hnil := ho1 o' hw
                  subst hnil
                  injection hw with hw
                  injection hw with hw
                  subst hw
                  by_cases hpart : s'.partials o = true
                  · rw [if_pos hpart]
                    exact hi
                  · rw [if_neg hpart]
                    refine Tags.setTag_same hi _ r p o path hlo ?_
                    rw [hpath, hname, hp, ← join_cons_full m hq]
                    simp only [List.append_nil, List.nil_append] at hqa
                    rw [hqa]
                | method o' =>
                  dsimp only
                  obtain ⟨e, hlen⟩ := ho2 o' hw
                  subst e
                  by_cases hsp : w.isSpecific o' = true
                  · rw [if_pos hsp]
                    refine Tags.setTag_same hi _ r p o' _ hlo ?_
                    show join '.' (List.dropLast _) = _
                    rw [hname, hp, ← join_cons_full m hq]
                    simp only [List.nil_append] at hqa
                    rw [← hqa]
                    match attrs, hlen with
                    | [x], _ =>
                      have : m :: (q ++ [x]) = (m :: q) ++ [x] := rfl
                      rw [this, List.dropLast_concat]
                  · rw [if_neg hsp]
                    exact hi

theorem Tags.Reach.inv {w : Tags.World} {s : Tags.State} (h : Tags.Reach w s) : Tags.Inv w s := by
  induction h with
  | start =>
    exact ⟨(fun _ _ _ h => by cases h), (fun _ _ _ _ _ h => by cases h), (fun _ _ _ _ _ h => by cases h),
      (fun _ _ _ _ _ h => by cases h), (fun _ _ _ h => by cases h), (fun _ _ _ h => by cases h), (fun _ _ h => by cases h)⟩
  | step op _ ho ih => exact ih.step op ho

/-! ### C109 -/

/-- **C109** (own objects, views called under the item's own path): every object a manager keeps for an item has the full path of the item. -/
theorem C109_tag_partial {w : Tags.World} {s : Tags.State} (h : Tags.Reach w s) {r : Nat} {p : String} {o : Nat}
    (hl : s.loaded r p = some o) : s.tag o = some (managedPath (w.name r) p) := h.inv.tagged r p o hl

/-- **C109** (own objects, views called under the item's own path): so has every object that getting or running an item gives, and getting it
again gives the same one. -/
theorem C109_get_partial {w : Tags.World} {s s' : Tags.State} (h : Tags.Reach w s) {r : Nat} {p : String} {ins ct : Bool}
    {made : Except PyErr (Option Nat)} (hm : ∀ o, made ≠ .ok (some o)) {o : Nat}
    (hg : Tags.getItem w r p ins made ct s = (.ok o, s')) :
    s'.tag o = some (managedPath (w.name r) p) ∧
    ∀ ins' made' ct', (s'.reg r p).isSome = true → Tags.getItem w r p ins' made' ct' s' = (.ok o, s') := by
  obtain ⟨hi, hl⟩ := h.inv.getItem r p ins made ct hm
  rw [hg] at hi hl
  have hlo : s'.loaded r p = some o := hl o rfl
  refine ⟨hi.tagged r p o hlo, fun ins' made' ct' hr => ?_⟩
  unfold Tags.getItem
  rw [M.bind_ok (M.get_run s')]
  cases hreg : s'.reg r p with
  | none => rw [hreg] at hr; cases hr
  | some kind =>
    dsimp only
    rw [hlo]
    rfl

theorem Tags.setTag_loaded (ct : Bool) (o : Nat) (path : String) (s : Tags.State) : (Tags.setTag ct o path s).2.loaded = s.loaded := by
  cases ct <;> rfl

/-- Getting an item keeps the objects of all others. -/
theorem Tags.getItem_loaded (w : Tags.World) (r : Nat) (p : String) (ins : Bool) (made : Except PyErr (Option Nat)) (ct : Bool)
    (s : Tags.State) {r' : Nat} {p' : String} {o : Nat} (h : s.loaded r' p' = some o) :
    (Tags.getItem w r p ins made ct s).2.loaded r' p' = some o := by
  unfold Tags.getItem
  rw [M.bind_ok (M.get_run s)]
  cases hreg : s.reg r p with
  | none => exact h
  | some kind =>
    cases hl : s.loaded r p with
    | some o => exact h
    | none =>
      have hne : ¬ (r' = r ∧ p' = p) := by
        rintro ⟨rfl, rfl⟩
        rw [h] at hl
        cases hl
      cases made with
      | error e => exact h
      | ok again =>
        dsimp only
        by_cases hk : kind = .func ∨ (kind = .klass ∧ ins = true)
        · rw [if_pos hk]
          show (if r' = r ∧ p' = p then _ else _) = _
          rw [if_neg hne]
          exact h
        · rw [if_neg hk]
          cases ct with
          | false =>
            cases kind <;> cases again <;> first | exact h | exact absurd (.inl rfl) hk
          | true =>
            cases kind <;> cases again <;> first
              | exact absurd (.inl rfl) hk
              | (show (if r' = r ∧ p' = p then _ else _) = _
                 rw [if_neg hne]
                 exact h)

/-- Every operation, of whatever kind, keeps the objects there are. -/
theorem Tags.step_loaded (w : Tags.World) (s : Tags.State) (op : Tags.Op) {r : Nat} {p : String} {o : Nat}
    (h : s.loaded r p = some o) : (Tags.step w s op).loaded r p = some o := by
  cases op with
  | load r' => exact h
  | forget name => exact h
  | register r' p' isClass => exact h
  | registerName r' p' => exact h
  | registerObject r' p' o' => exact h
  | change attr => exact h
  | get r' p' ins made ct => exact Tags.getItem_loaded w r' p' ins made ct s h
  | call path made ct ctn =>
    show (Tags.call w path made ct ctn s).2.loaded r p = some o
    unfold Tags.call
    rw [M.bind_ok (M.get_run s)]
    cases hs : (SectionPath.mk path).sections with
    | nil => exact h
    | cons m rest =>
      dsimp only
      cases ha : s.active m with
      | none => exact h
      | some r' =>
        dsimp only
        cases hf : Tags.findItem (fun p => (s.reg r' p).isSome) [] rest with
        | none => exact h
        | some e =>
          obtain ⟨p', attrs⟩ := e
          dsimp only
          have hk := Tags.getItem_loaded w r' p' false made ctn s h
          cases hg : Tags.getItem w r' p' false made ctn s with
          | mk res s' =>
            rw [hg] at hk
            cases res with
            | error e =>
              rw [M.bind_error hg]
              exact hk
            | ok o' =>
              rw [M.bind_ok hg, M.bind_ok (M.get_run s')]
              cases hw : Tags.walk s'.attr (.obj o') attrs with
              | none => exact hk
              | some t =>
                cases t with
                | other => exact hk
                | obj o2 =>
                  dsimp only
                  by_cases hpart : s'.partials o2 = true
                  · rw [if_pos hpart]
                    exact hk
                  · rw [if_neg hpart, Tags.setTag_loaded]
                    exact hk
                | method o2 =>
                  dsimp only
                  by_cases hsp : w.isSpecific o2 = true
                  · rw [if_pos hsp, Tags.setTag_loaded]
                    exact hk
                  · rw [if_neg hsp]
                    exact hk

/-- States that can follow another. -/
inductive Tags.Later (w : Tags.World) (s : Tags.State) : Tags.State → Prop where
  | now : Tags.Later w s s
  | step {s' : Tags.State} (op : Tags.Op) : Tags.Later w s s' → Tags.Op.Own w s' op → Tags.Later w s (Tags.step w s' op)

/-- **C109** (own objects, views called under the item's own path): the object of an item keeps its path, whatever happens later. -/
theorem C109_lasting_partial {w : Tags.World} {s s' : Tags.State} (h : Tags.Reach w s) (hs : Tags.Later w s s') {r : Nat} {p : String}
    {o : Nat} (hl : s.loaded r p = some o) : s'.loaded r p = some o ∧ s'.tag o = s.tag o := by
  have : Tags.Reach w s' ∧ s'.loaded r p = some o := by
    induction hs with
    | now => exact ⟨h, hl⟩
    | step op _ ho ih => exact ⟨.step op ih.1 ho, Tags.step_loaded w _ op ih.2⟩
  exact ⟨this.2, by rw [C109_tag_partial this.1 this.2, C109_tag_partial h hl]⟩

/-- **C109** (own objects, views called under the item's own path): objects with the same path are the same object, if no two managers have the
same name and no name has a dot. -/
theorem C109_distinct_partial {w : Tags.World} {s : Tags.State} (h : Tags.Reach w s) (hd : ∀ r, DotFree (w.name r))
    (hn : ∀ r r', w.name r = w.name r' → r = r') {r r' : Nat} {p p' : String} {o o' : Nat} (hl : s.loaded r p = some o)
    (hl' : s.loaded r' p' = some o') (ht : s.tag o = s.tag o') : o = o' ∧ r = r' ∧ p = p' := by
  rw [C109_tag_partial h hl, C109_tag_partial h hl'] at ht
  injection ht with ht
  have hs := congrArg (split '.') ht
  unfold managedPath at hs
  rw [split_dot_append, split_dot_append] at hs
  have one : ∀ r, split '.' (w.name r) = [w.name r] := fun r => by
    have := split_join '.' (xs := [w.name r]) (by simp) (by
      intro x hx
      rw [List.mem_singleton] at hx
      rw [hx]
      exact (dotFree_iff _).1 (hd r))
    rw [join_singleton] at this
    exact this
  rw [one, one] at hs
  injection hs with h1 h2
  have e1 := hn _ _ h1
  have e2 := split_injective '.' h2
  subst e1 e2
  rw [hl] at hl'
  injection hl' with hl'
  exact ⟨hl', rfl, rfl⟩

theorem Tags.findItem_whole {isItem : String → Bool} (done rest : List String) (hr : rest ≠ [])
    (hi : isItem (join '.' (done ++ rest)) = true)
    (hs : ∀ q, q ≠ [] → q ≠ rest → q <+: rest → isItem (join '.' (done ++ q)) = false) :
    Tags.findItem isItem done rest = some (join '.' (done ++ rest), []) := by
  induction rest generalizing done with
  | nil => exact absurd rfl hr
  | cons x rest ih =>
    unfold Tags.findItem
    by_cases hc : rest = []
    · subst hc
      rw [if_pos hi]
    · have h1 := hs [x] (by simp) (by intro e; injection e with _ e; exact hc e.symm) ⟨rest, rfl⟩
      rw [if_neg (by rw [h1]; exact Bool.false_ne_true)]
      have e : ∀ l, done ++ x :: l = (done ++ [x]) ++ l := fun l => by simp
      rw [e rest] at hi ⊢
      refine ih (done ++ [x]) hc hi (fun q hq hqr hp => ?_)
      rw [← e q]
      refine hs (x :: q) (by simp) (fun e => hqr (by injection e)) ?_
      obtain ⟨t, ht⟩ := hp
      exact ⟨t, by rw [← ht]; rfl⟩

/-- **C109** (own objects, views called under the item's own path): a view of the path an object has is a view of this object: calling it finds
the object and leaves everything as it is, if the manager is active and no part of the path is another item. -/
theorem C109_view_partial {w : Tags.World} {s : Tags.State} (h : Tags.Reach w s) {r : Nat} {p path : String} {o : Nat}
    (hl : s.loaded r p = some o) (hd : DotFree (w.name r)) (ha : s.active (w.name r) = some r) (hr : (s.reg r p).isSome = true)
    (hs : ∀ q, q ≠ [] → q ≠ split '.' p → q <+: split '.' p → s.reg r (join '.' q) = none) (ht : s.tag o = some path)
    (made : Except PyErr (Option Nat)) (ct : Nat → Bool) (ctn : Bool) (hc : s.partials o = true ∨ ct o = true) :
    Tags.getItem w r p false made ctn s = (.ok o, s) ∧ Tags.call w path made ct ctn s = (.ok (), s) := by
  have hget : Tags.getItem w r p false made ctn s = (.ok o, s) := by
    unfold Tags.getItem
    rw [M.bind_ok (M.get_run s)]
    cases hreg : s.reg r p with
    | none => rw [hreg] at hr; cases hr
    | some kind =>
      dsimp only
      rw [hl]
      rfl
  refine ⟨hget, ?_⟩
  have hp : path = managedPath (w.name r) p := by
    have := C109_tag_partial h hl
    rw [ht] at this
    injection this
  have one : split '.' (w.name r) = [w.name r] := by
    have := split_join '.' (xs := [w.name r]) (by simp) (by
      intro x hx
      rw [List.mem_singleton] at hx
      rw [hx]
      exact (dotFree_iff _).1 hd)
    rw [join_singleton] at this
    exact this
  have hsec : (SectionPath.mk path).sections = w.name r :: split '.' p := by
    show split '.' path = _
    rw [hp]
    unfold managedPath
    rw [split_dot_append, one]
    rfl
  have hf : Tags.findItem (fun p => (s.reg r p).isSome) [] (split '.' p) = some (p, []) := by
    have := Tags.findItem_whole (isItem := fun p => (s.reg r p).isSome) [] (split '.' p) (split_ne_nil '.' p)
      (by rw [List.nil_append, join_split]; exact hr)
      (fun q h1 h2 h3 => by rw [List.nil_append, hs q h1 h2 h3]; rfl)
    rw [List.nil_append, join_split] at this
    exact this
  unfold Tags.call
  rw [M.bind_ok (M.get_run s), hsec]
  dsimp only
  rw [ha]
  dsimp only
  rw [hf]
  dsimp only
  rw [M.bind_ok hget, M.bind_ok (M.get_run s)]
  show (if s.partials o = true then (return () : Tags.TM Unit) else Tags.setTag (ct o) o path) s = _
  by_cases hpart : s.partials o = true
  · rw [if_pos hpart]
    rfl
  · rw [if_neg hpart]
    have hct : ct o = true := hc.resolve_left hpart
    unfold Tags.setTag
    rw [hct]
    show (_, ({ s with tag := fun o' => if o' = o then some path else s.tag o' } : Tags.State)) = _
    have : (fun o' => if o' = o then some path else s.tag o') = s.tag := by
      funext o'
      by_cases hc : o' = o
      · rw [if_pos hc, hc, ht]
      · rw [if_neg hc]
    rw [this]

/-! ### Functions and objects -/

theorem Tags.fresh_next (b : Bool) (s : Tags.State) : (Tags.fresh b s).2.next = s.next + 1 := rfl

/-- Which objects are a `functools.partial` after an item was got: those that were, and the one kept for the item, if it is new and for a
function, or for a class in a section. -/
theorem Tags.getItem_partials (w : Tags.World) (r : Nat) (p : String) (ins : Bool) (made : Except PyErr (Option Nat)) (ct : Bool)
    (s : Tags.State) :
    s.next ≤ (Tags.getItem w r p ins made ct s).2.next ∧
    (∀ o, o < s.next → (Tags.getItem w r p ins made ct s).2.partials o = s.partials o) ∧
    (∀ o, (Tags.getItem w r p ins made ct s).2.partials o = true →
      s.partials o = true ∨ (Tags.getItem w r p ins made ct s).2.loaded r p = some o) := by
  unfold Tags.getItem
  rw [M.bind_ok (M.get_run s)]
  cases hreg : s.reg r p with
  | none => exact ⟨Nat.le_refl _, fun _ _ => rfl, fun _ h => .inl h⟩
  | some kind =>
    cases hl : s.loaded r p with
    | some o => exact ⟨Nat.le_refl _, fun _ _ => rfl, fun _ h => .inl h⟩
    | none =>
      cases made with
      | error e => exact ⟨Nat.le_refl _, fun _ _ => rfl, fun _ h => .inl h⟩
      | ok again =>
        dsimp only
        by_cases hk : kind = .func ∨ (kind = .klass ∧ ins = true)
        · rw [if_pos hk]
          refine ⟨Nat.le_succ _, fun o ho => ?_, fun o ho => ?_⟩
          · show (if o = s.next then true else s.partials o) = _
            rw [if_neg (Nat.ne_of_lt ho)]
          · have ho : (if o = s.next then true else s.partials o) = true := ho
            by_cases hc : o = s.next
            · refine .inr ?_
              show (if r = r ∧ p = p then some s.next else _) = _
              rw [if_pos ⟨rfl, rfl⟩, hc]
            · rw [if_neg hc] at ho
              exact .inl ho
        · rw [if_neg hk]
          have new : ∀ o, (if o = s.next then false else s.partials o) = true → s.partials o = true := by
            intro o ho
            by_cases hc : o = s.next
            · rw [if_pos hc] at ho
              cases ho
            · rwa [if_neg hc] at ho
          have old : ∀ o, o < s.next → (if o = s.next then false else s.partials o) = s.partials o :=
            fun o ho => if_neg (Nat.ne_of_lt ho)
          cases ct <;> cases kind <;> cases again <;> first
            | exact absurd (.inl rfl) hk
            | exact ⟨Nat.le_refl _, fun _ _ => rfl, fun _ h => .inl h⟩
            | exact ⟨Nat.le_succ _, old, fun o h => .inl (new o h)⟩

/-- Calling a view gets at most one item, and sets paths. -/
theorem Tags.call_after (w : Tags.World) (path : String) (made : Except PyErr (Option Nat)) (ct : Nat → Bool) (ctn : Bool)
    (s : Tags.State) :
    ∃ s' tag, (s' = s ∨ ∃ r p, s' = (Tags.getItem w r p false made ctn s).2) ∧
      (Tags.call w path made ct ctn s).2 = { s' with tag } := by
  unfold Tags.call
  rw [M.bind_ok (M.get_run s)]
  cases hs : (SectionPath.mk path).sections with
  | nil => exact ⟨s, s.tag, .inl rfl, rfl⟩
  | cons m rest =>
    dsimp only
    cases ha : s.active m with
    | none => exact ⟨s, s.tag, .inl rfl, rfl⟩
    | some r =>
      dsimp only
      cases hf : Tags.findItem (fun p => (s.reg r p).isSome) [] rest with
      | none => exact ⟨s, s.tag, .inl rfl, rfl⟩
      | some e =>
        obtain ⟨p, attrs⟩ := e
        dsimp only
        cases hg : Tags.getItem w r p false made ctn s with
        | mk res s' =>
          have hs' : s' = (Tags.getItem w r p false made ctn s).2 := by rw [hg]
          have set : ∀ b o q, ∃ tag, (Tags.setTag b o q s').2 = { s' with tag } := by
            intro b o q
            cases b with
            | false => exact ⟨s'.tag, rfl⟩
            | true => exact ⟨_, rfl⟩
          cases res with
          | error e =>
            rw [M.bind_error hg]
            exact ⟨s', s'.tag, .inr ⟨r, p, hs'⟩, rfl⟩
          | ok o =>
            rw [M.bind_ok hg, M.bind_ok (M.get_run s')]
            cases hw : Tags.walk s'.attr (.obj o) attrs with
            | none => exact ⟨s', s'.tag, .inr ⟨r, p, hs'⟩, rfl⟩
            | some t =>
              cases t with
              | other => exact ⟨s', s'.tag, .inr ⟨r, p, hs'⟩, rfl⟩
              | obj o2 =>
                dsimp only
                by_cases hpart : s'.partials o2 = true
                · rw [if_pos hpart]
                  exact ⟨s', s'.tag, .inr ⟨r, p, hs'⟩, rfl⟩
                · rw [if_neg hpart]
                  obtain ⟨tag, h⟩ := set (ct o2) o2 path
                  exact ⟨s', tag, .inr ⟨r, p, hs'⟩, h⟩
              | method o2 =>
                dsimp only
                by_cases hsp : w.isSpecific o2 = true
                · rw [if_pos hsp]
                  obtain ⟨tag, h⟩ := set (ct o2) o2
                    (SectionPath.fromSectionStrList (List.dropLast (m :: rest))).pathStr
                  exact ⟨s', tag, .inr ⟨r, p, hs'⟩, h⟩
                · rw [if_neg hsp]
                  exact ⟨s', s'.tag, .inr ⟨r, p, hs'⟩, rfl⟩

/-- No operation makes a `functools.partial` of an object that is there, or makes it something else. -/
theorem Tags.step_partials (w : Tags.World) (s : Tags.State) (op : Tags.Op) :
    s.next ≤ (Tags.step w s op).next ∧
    (∀ o, o < s.next → (Tags.step w s op).partials o = s.partials o) ∧
    (∀ o, (Tags.step w s op).partials o = true → s.partials o = true ∨ ∃ r p, (Tags.step w s op).loaded r p = some o) := by
  cases op with
  | load r => exact ⟨Nat.le_refl _, fun _ _ => rfl, fun _ h => .inl h⟩
  | forget name => exact ⟨Nat.le_refl _, fun _ _ => rfl, fun _ h => .inl h⟩
  | register r p isClass => exact ⟨Nat.le_refl _, fun _ _ => rfl, fun _ h => .inl h⟩
  | registerObject r p o => exact ⟨Nat.le_refl _, fun _ _ => rfl, fun _ h => .inl h⟩
  | change attr => exact ⟨Nat.le_refl _, fun _ _ => rfl, fun _ h => .inl h⟩
  | registerName r p =>
    refine ⟨Nat.le_succ _, fun o ho => if_neg (Nat.ne_of_lt ho), fun o ho => .inl ?_⟩
    have ho : (if o = s.next then false else s.partials o) = true := ho
    by_cases hc : o = s.next
    · rw [if_pos hc] at ho
      cases ho
    · rwa [if_neg hc] at ho
  | get r p ins made ct =>
    obtain ⟨h1, h2, h3⟩ := Tags.getItem_partials w r p ins made ct s
    exact ⟨h1, h2, fun o ho => (h3 o ho).imp id (fun h => ⟨r, p, h⟩)⟩
  | call path made ct ctn =>
    obtain ⟨s', tag, hs, he⟩ := Tags.call_after w path made ct ctn s
    show s.next ≤ (Tags.call w path made ct ctn s).2.next ∧ _
    have he' : Tags.step w s (.call path made ct ctn) = { s' with tag } := he
    rw [he, he']
    rcases hs with hs | ⟨r, p, hs⟩
    · subst hs
      exact ⟨Nat.le_refl _, fun _ _ => rfl, fun _ h => .inl h⟩
    · subst hs
      obtain ⟨h1, h2, h3⟩ := Tags.getItem_partials w r p false made ctn s
      exact ⟨h1, h2, fun o ho => (h3 o ho).imp id (fun h => ⟨r, p, h⟩)⟩

/-- **C109** (own objects, views called under the item's own path): whatever a manager has made a `functools.partial` is the object of an item,
so it has the path of this item. -/
theorem C109_functions_partial {w : Tags.World} {s : Tags.State} (h : Tags.Reach w s) {o : Nat} (ho : s.partials o = true) :
    ∃ r p, s.loaded r p = some o ∧ s.tag o = some (managedPath (w.name r) p) := by
  have : ∃ r p, s.loaded r p = some o := by
    have h' := h
    clear h
    revert ho
    induction h' with
    | start => intro ho; cases ho
    | step op _ _ ih =>
      intro ho
      rcases (Tags.step_partials w _ op).2.2 o ho with h | h
      · obtain ⟨r, p, h⟩ := ih h
        exact ⟨r, p, Tags.step_loaded w _ op h⟩
      · exact h
  obtain ⟨r, p, hl⟩ := this
  exact ⟨r, p, hl, C109_tag_partial h hl⟩

/-- **C109** (own objects, views called under the item's own path): the object made for a function is a `functools.partial`, that for a class
is one only if it was first got with its section, and this remains so whatever happens later. -/
theorem C109_kind_partial {w : Tags.World} {s s' s'' : Tags.State} {r : Nat} {p : String} {isClass ins ct : Bool}
    (hr : s.reg r p = some (if isClass then .klass else .func)) (hl : s.loaded r p = none) {o : Nat}
    (hg : Tags.getItem w r p ins (.ok none) ct s = (.ok o, s')) (hs : Tags.Later w s' s'') :
    s.next = o ∧ s''.partials o = (!isClass || ins) := by
  have key : s.next = o ∧ o < s'.next ∧ s'.partials o = (!isClass || ins) := by
    unfold Tags.getItem at hg
    rw [M.bind_ok (M.get_run s), hr] at hg
    dsimp only at hg
    rw [hl] at hg
    cases isClass <;> cases ins <;> cases ct <;> first
      | (cases hg; done)
      | (injection hg with h1 h2
         injection h1 with h1
         subst h1 h2
         exact ⟨rfl, Nat.lt_succ_self _, if_pos rfl⟩)
  refine ⟨key.1, ?_⟩
  have : o < s''.next ∧ s''.partials o = s'.partials o := by
    induction hs with
    | now => exact ⟨key.2.1, rfl⟩
    | step op _ _ ih =>
      obtain ⟨h1, h2, _⟩ := Tags.step_partials w _ op
      exact ⟨Nat.lt_of_lt_of_le ih.1 h1, (h2 o ih.1).trans ih.2⟩
  rw [this.2, key.2.2]

/-- **C109**: a view that cannot be called changes no path: not if its manager is not active or has no such item, and not if the object has
no such attribute or the attribute is not an object. -/
theorem C109_no_call (w : Tags.World) (s : Tags.State) {path m : String} {rest : List String}
    (hp : (SectionPath.mk path).sections = m :: rest) (made : Except PyErr (Option Nat)) (ct : Nat → Bool) (ctn : Bool) :
    (s.active m = none → Tags.call w path made ct ctn s = (.error .noManager, s)) ∧
    ∀ r, s.active m = some r →
      (Tags.findItem (fun p => (s.reg r p).isSome) [] rest = none → Tags.call w path made ct ctn s = (.error .keyError, s)) ∧
      ∀ p attrs, Tags.findItem (fun p => (s.reg r p).isSome) [] rest = some (p, attrs) →
        (∀ e s', Tags.getItem w r p false made ctn s = (.error e, s') → Tags.call w path made ct ctn s = (.error e, s')) ∧
        (∀ o s', Tags.getItem w r p false made ctn s = (.ok o, s') →
          (Tags.walk s'.attr (.obj o) attrs = none ∨ Tags.walk s'.attr (.obj o) attrs = some .other) →
          Tags.call w path made ct ctn s = (.error .attributeError, s')) := by
  unfold Tags.call
  rw [M.bind_ok (M.get_run s), hp]
  dsimp only
  refine ⟨fun ha => by rw [ha]; rfl, fun r ha => ?_⟩
  rw [ha]
  dsimp only
  refine ⟨fun hf => by rw [hf]; rfl, fun p attrs hf => ?_⟩
  rw [hf]
  dsimp only
  refine ⟨fun e s' hg => M.bind_error hg, fun o s' hg hw => ?_⟩
  rw [M.bind_ok hg, M.bind_ok (M.get_run s')]
  rcases hw with hw | hw <;> rw [hw] <;> rfl

/-! ### Counterexamples -/

/-- All managers are called `pm`; all objects are of specific classes. -/
def demoTagWorld : Tags.World := ⟨fun _ => "pm", fun _ => true⟩

/-- Two objects of a specific class are got, and the first uses the second. -/
def demoTagOps : List Tags.Op :=
  [.load 0, .registerName 0 "k.a", .registerName 0 "k.b", .get 0 "k.a" false (.ok none) true, .get 0 "k.b" true (.ok none) true,
   .change (fun o x => if o = 0 ∧ x = "other" then some (.obj 1) else if o = 0 ∧ x = "run" then some (.method 0) else none)]

def demoTagState : Tags.State := demoTagOps.foldl (Tags.step demoTagWorld) .start

/-- The assumptions of the theorems hold for a manager with these objects, and calling the views of the first, or of its method, is one
of the operations. -/
example : Tags.Reach demoTagWorld demoTagState ∧ demoTagState.loaded 0 "k.b" = some 1 ∧
    demoTagState.tag 1 = some "pm.k.b" ∧
    Tags.Op.Own demoTagWorld demoTagState (.call "pm.k.a" (.ok none) (fun _ => true) true) ∧
    Tags.walk demoTagState.attr (.obj 0) ["run"] = some (.method 0) := by
  refine ⟨?_, by decide, by decide, ⟨(by simp), ?_⟩, by decide⟩
  · unfold demoTagState demoTagOps
    simp only [List.foldl]
    exact .step _ (.step _ (.step _ (.step _ (.step _ (.step _ .start trivial) trivial) trivial) (by intro o h; cases h))
      (by intro o h; cases h)) trivial
  · intro m rest r p attrs o s' h1 h2 h3 _
    have e : (SectionPath.mk "pm.k.a").sections = ["pm", "k", "a"] := by decide
    rw [e] at h1
    injection h1 with h1 h1'
    subst h1 h1'
    have e2 : demoTagState.active "pm" = some 0 := by decide
    rw [e2] at h2
    injection h2 with h2
    subst h2
    have e3 : Tags.findItem (fun p => (demoTagState.reg 0 p).isSome) [] ["k", "a"] = some ("k.a", []) := by decide
    rw [e3] at h3
    injection h3 with h3
    injection h3 with h3 h4
    subst h4
    exact ⟨fun _ _ => rfl, fun o' h => by cases h⟩

/-- The functions of a manager are among these objects, and so is calling a view that does not come to an object. -/
example : (Tags.step demoTagWorld (Tags.step demoTagWorld .start (.register 0 "a.f" false)) (.get 0 "a.f" false (.ok none) true)).partials 0 = true ∧
    (Tags.step demoTagWorld (Tags.step demoTagWorld .start (.register 0 "a.K" true)) (.get 0 "a.K" false (.ok none) true)).partials 0 = false ∧
    demoTagState.active "pm" = some 0 ∧ Tags.findItem (fun p => (demoTagState.reg 0 p).isSome) [] ["x", "y"] = none ∧
    Tags.walk demoTagState.attr (.obj 0) ["missing"] = none := by decide

/-- **C109** fails when a view of an attribute is called that is the object of another item: that object then has the path of the attribute. -/
theorem C109_alias_violated :
    let s := Tags.step demoTagWorld demoTagState (.call "pm.k.a.other" (.ok none) (fun _ => true) true)
    demoTagState.tag 1 = some "pm.k.b" ∧ s.loaded 0 "k.b" = some 1 ∧ s.tag 1 = some "pm.k.a.other" := by decide

/-- **C109** fails for an object that is in the definition twice: it has the path under which it was got last. -/
theorem C109_shared_violated :
    let s := [Tags.Op.registerName 0 "k.a", .registerObject 0 "k.b" 0, .get 0 "k.a" false (.ok none) true,
      .get 0 "k.b" false (.ok none) true].foldl (Tags.step demoTagWorld) .start
    s.loaded 0 "k.a" = some 0 ∧ s.loaded 0 "k.b" = some 0 ∧ s.tag 0 = some "pm.k.b" := by decide

/-- **C109** fails for a class that gives the same object each time. -/
theorem C109_again_violated :
    let s := [Tags.Op.register 0 "a.K" true, .register 0 "b.K" true, .get 0 "a.K" false (.ok none) true,
      .get 0 "b.K" false (.ok (some 0)) true].foldl (Tags.step demoTagWorld) .start
    s.loaded 0 "a.K" = some 0 ∧ s.tag 0 = some "pm.b.K" := by decide

/-- **C109** fails for objects whose attributes cannot be set (`__slots__`): they cannot be got, though they could be made. -/
theorem C109_slots_violated (w : Tags.World) (s : Tags.State) (r : Nat) (p : String) (hr : s.reg r p = some .klass)
    (hl : s.loaded r p = none) (again : Option Nat) :
    (Tags.getItem w r p false (.ok again) false s).1 = .error .attributeError ∧
    (Tags.getItem w r p false (.ok again) false s).2.loaded r p = none := by
  unfold Tags.getItem
  rw [M.bind_ok (M.get_run s), hr]
  dsimp only
  rw [hl]
  cases again with
  | none => exact ⟨rfl, hl⟩
  | some o => exact ⟨rfl, hl⟩

/-- **C109** fails for two managers with the same name, such as one that was loaded again: an object of the first has the same path as
one of the second, and the view of this path is that of the second. -/
theorem C109_manager_violated :
    let s := [Tags.Op.load 0, .register 0 "a.f" false, .get 0 "a.f" false (.ok none) true, .load 1, .register 1 "a.f" false,
      .get 1 "a.f" false (.ok none) true].foldl (Tags.step demoTagWorld) .start
    s.loaded 0 "a.f" = some 0 ∧ s.loaded 1 "a.f" = some 1 ∧ s.tag 0 = some "pm.a.f" ∧ s.tag 1 = some "pm.a.f" ∧
    s.active "pm" = some 1 := by decide

end Verif.Props
