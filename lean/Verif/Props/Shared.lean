import Verif.Model.Shared

/-
Property theorems about config values that are changed in place: C96.
-/

namespace Verif.Props
open Verif.Py Verif.Model

variable {C : Type}

/-! ## C96 -/

/-! ### Specification -/

/-- What is done with a manager; an update makes new values. -/
inductive ShOp (C : Type) where
  | get (p : List String)
  | run (p : List String) (body : (String → Option C) → List (String × (C → C)))
  | update (p : List String) (kw : Dict String C)
  | reset (p : List String)

/-- Do it; the caller catches what it raises. -/
def ShOp.exec [BEq C] (fs : SharedFiles C) : ShOp C → Shared C → Shared C
  | .get p, w => (Shared.get fs p w).2
  | .run p body, w => (Shared.run fs p body w).2
  | .update p kw, w => ((Shared.make kw >>= fun v => Shared.update fs p v) w).2
  | .reset p, w => (Shared.reset fs p w).2

/-- The state after a history. -/
def ShOp.after [BEq C] (fs : SharedFiles C) (w : Shared C) (ops : List (ShOp C)) : Shared C :=
  ops.foldl (fun w op => op.exec fs w) w

/-- The operation does not set or change the values of `q`: it may be got, reset and run, by a function
that does not change its arguments; anything may be done to other items. -/
def ShOp.Spares (q : List String) : ShOp C → Prop
  | .run p body => p ≠ q ∨ ∀ a, body a = []
  | .update p _ => p ≠ q
  | _ => True

/-- The loaded manager. -/
def sharedLoaded (fs : SharedFiles C) (ss : List (List String)) : Shared C := (Shared.loadSects fs ss Shared.empty).2

/-- The contents of a value of the active config of an item. -/
def sharedShows (fs : SharedFiles C) (w : Shared C) (q : List String) (k : String) : Option C :=
  match Shared.get fs q w with
  | (.ok c, w') => (c.get? k).bind w'.heap
  | (.error _, _) => none

/-- No section around the item has the key. -/
def NotAround (w : Shared C) (q : List String) (k : String) : Prop :=
  ∀ s ∈ Shared.around q, (w.sectConf s).get? k = none

/-! ### Lemmas -/

namespace Sh

theorem refsOf_get? (n : Nat) (d : Dict String C) (k : String) :
    (Shared.refsOf n d).get? k = (d.get? k).map (fun _ => (n, k)) := by
  unfold Shared.refsOf Dict.get?
  simp only
  induction d.items with
  | nil => rfl
  | cons e es ih =>
    simp only [List.map_cons, AList.get?]
    by_cases h : e.1 = k
    · simp [h]
    · simp [h, ih]

theorem inherit_get? (w : Shared C) (hl : w.loc = Dict.empty) (q : List String) (c : Dict String Ref) (k : String) :
    (NotAround w q k → (w.inherit q c).get? k = c.get? k) ∧
    ∀ r, (w.inherit q c).get? k = some r → c.get? k = some r ∨ ∃ s, (w.sectConf s).get? k = some r := by
  unfold Shared.inherit NotAround
  rw [hl, Dict.update_empty]
  generalize Shared.around q = ss
  induction ss generalizing c with
  | nil => exact ⟨fun _ => rfl, fun r h => .inl h⟩
  | cons s ss ih =>
    rw [List.foldl_cons]
    obtain ⟨h1, h2⟩ := ih (c.update (w.sectConf s))
    constructor
    · intro hn
      rw [h1 (fun s' hs' => hn s' (List.mem_cons_of_mem _ hs')), Dict.get?_update, hn s List.mem_cons_self]
      rfl
    · intro r hr
      rcases h2 r hr with h | h
      · rw [Dict.get?_update] at h
        cases hs : (w.sectConf s).get? k with
        | none => rw [hs] at h; exact .inl h
        | some r' => rw [hs] at h; exact .inr ⟨s, by rw [hs]; exact h⟩
      · exact .inr h

/-- Whose object each execution made: of an item, or (`none`) of a section or a caller. -/
structure Inv (fs : SharedFiles C) (q : List String) (owner : Nat → Option (List String)) (w : Shared C) : Prop where
  loc : w.loc = Dict.empty
  sects : ∀ s k r, (w.sectConf s).get? k = some r → r.1 < w.next ∧ owner r.1 = none
  confs : ∀ p c, w.confs.get? p = some c → ∀ k r, c.get? k = some r → r.1 < w.next ∧ (owner r.1 = some p ∨ owner r.1 = none)
  own : ∀ c, w.confs.get? q = some c → ∃ d, fs.item q = some d ∧ ∀ k, NotAround w q k →
    (c.get? k).bind w.heap = d.get? k ∧ ∀ r, c.get? k = some r → owner r.1 = some q

/-- New objects. -/
theorem Inv.make {fs : SharedFiles C} {q : List String} {owner : Nat → Option (List String)} {w : Shared C}
    (h : Inv fs q owner w) (d : Dict String C) (x : Option (List String)) :
    Inv fs q (fun n => if n = w.next then x else owner n) (Shared.make d w).2 := by
  have hlt : ∀ n, n < w.next → (if n = w.next then x else owner n) = owner n := fun n hn => if_neg (Nat.ne_of_lt hn)
  refine ⟨h.loc, ?_, ?_, ?_⟩
  · intro s k r hr
    obtain ⟨h1, h2⟩ := h.sects s k r hr
    exact ⟨Nat.lt_succ_of_lt h1, by simp only [hlt _ h1]; exact h2⟩
  · intro p c hc k r hr
    obtain ⟨h1, h2⟩ := h.confs p c hc k r hr
    exact ⟨Nat.lt_succ_of_lt h1, by simp only [hlt _ h1]; exact h2⟩
  · intro c hc
    obtain ⟨d', hd, hk⟩ := h.own c hc
    refine ⟨d', hd, fun k hn => ?_⟩
    obtain ⟨h1, h2⟩ := hk k hn
    have hb : ∀ r, c.get? k = some r → r.1 < w.next := fun r hr => (h.confs q c hc k r hr).1
    constructor
    · rw [← h1]
      cases hr : c.get? k with
      | none => rfl
      | some r =>
        show (if r.1 = w.next then d.get? r.2 else w.heap r) = w.heap r
        rw [if_neg (Nat.ne_of_lt (hb r hr))]
    · intro r hr
      simp only [hlt _ (hb r hr)]
      exact h2 r hr

/-- A config is stored. -/
theorem Inv.store {fs : SharedFiles C} {q : List String} {owner : Nat → Option (List String)} {w : Shared C}
    (h : Inv fs q owner w) (p : List String) (c : Dict String Ref)
    (h1 : ∀ k r, c.get? k = some r → r.1 < w.next ∧ (owner r.1 = some p ∨ owner r.1 = none))
    (h2 : p = q → ∃ d, fs.item q = some d ∧ ∀ k, NotAround w q k →
      (c.get? k).bind w.heap = d.get? k ∧ ∀ r, c.get? k = some r → owner r.1 = some q) :
    Inv fs q owner { w with confs := w.confs.set p c } := by
  refine ⟨h.loc, h.sects, ?_, ?_⟩
  · intro p' c' hc'
    simp only [Dict.get?_set] at hc'
    split at hc'
    · rename_i hp
      cases hc'
      subst hp
      exact h1
    · exact h.confs p' c' hc'
  · intro c' hc'
    simp only [Dict.get?_set] at hc'
    split at hc'
    · rename_i hp
      cases hc'
      exact h2 hp
    · exact h.own c' hc'

theorem ownConf_run (fs : SharedFiles C) (p : List String) (w : Shared C) :
    Shared.ownConf fs p w = match w.confs.get? p with
      | some c => (.ok c, w)
      | none => match fs.item p with
        | none => (.error .keyError, w)
        | some d => (.ok (Shared.refsOf w.next d), { (Shared.make d w).2 with
            confs := w.confs.set p (Shared.refsOf w.next d) }) := by
  unfold Shared.ownConf
  rw [M.bind_ok (M.get_run w)]
  cases w.confs.get? p with
  | some c => rfl
  | none => cases fs.item p <;> rfl

/-- A config is loaded. -/
theorem Inv.ownConf {fs : SharedFiles C} {q : List String} {owner : Nat → Option (List String)} {w : Shared C}
    (h : Inv fs q owner w) (p : List String) {out : Except PyErr (Dict String Ref)} {w' : Shared C}
    (hr : Shared.ownConf fs p w = (out, w')) : ∃ owner', Inv fs q owner' w' ∧ w'.sects = w.sects ∧
      (∀ c, out = .ok c → w'.confs.get? p = some c) ∧ (∀ r, r.1 < w.next → w'.heap r = w.heap r) ∧
      (∀ n, n < w.next → owner' n = owner n) ∧ w.next ≤ w'.next := by
  rw [ownConf_run] at hr
  cases hc : w.confs.get? p with
  | some c =>
    rw [hc] at hr
    cases hr
    exact ⟨owner, h, rfl, fun c' hc' => by cases hc'; exact hc, fun _ _ => rfl, fun _ _ => rfl, Nat.le_refl _⟩
  | none =>
    rw [hc] at hr
    cases hd : fs.item p with
    | none =>
      rw [hd] at hr
      cases hr
      exact ⟨owner, h, rfl, fun c' hc' => (by cases hc'), fun _ _ => rfl, fun _ _ => rfl, Nat.le_refl _⟩
    | some d =>
      rw [hd] at hr
      cases hr
      have hm := h.make d (some p)
      refine ⟨_, hm.store p (Shared.refsOf w.next d) ?_ ?_, rfl, fun c' hc' => ?_, fun r hr => ?_, fun n hn => ?_,
        Nat.le_succ _⟩
      · intro k r hr
        rw [refsOf_get?] at hr
        cases hk : d.get? k with
        | none => rw [hk] at hr; cases hr
        | some v =>
          rw [hk] at hr
          cases hr
          exact ⟨Nat.lt_succ_self _, .inl (if_pos rfl)⟩
      · intro hpq
        subst hpq
        refine ⟨d, hd, fun k _ => ?_⟩
        rw [refsOf_get?]
        constructor
        · cases hk : d.get? k with
          | none => rfl
          | some v =>
            show (if w.next = w.next then d.get? k else _) = some v
            rw [if_pos rfl, hk]
        · intro r hr
          cases hk : d.get? k with
          | none => rw [hk] at hr; cases hr
          | some v => rw [hk] at hr; cases hr; exact if_pos rfl
      · cases hc'
        exact Dict.get?_set_self _ _ _
      · exact if_neg (Nat.ne_of_lt hr)
      · exact if_neg (Nat.ne_of_lt hn)

theorem get_run (fs : SharedFiles C) (p : List String) (w : Shared C) :
    Shared.get fs p w = match Shared.ownConf fs p w with
      | (.error e, w') => (.error e, w')
      | (.ok c, w') => if c.items.isEmpty then (.ok c, w')
        else (.ok (w'.inherit p c), { w' with confs := w'.confs.set p (w'.inherit p c) }) := by
  unfold Shared.get
  rw [M.bind_run]
  cases Shared.ownConf fs p w with
  | mk out w' =>
    cases out with
    | error e => rfl
    | ok c =>
      simp only
      rw [M.bind_ok (M.get_run w')]
      split <;> rfl

/-- An active config is got. -/
theorem Inv.get {fs : SharedFiles C} {q : List String} {owner : Nat → Option (List String)} {w : Shared C}
    (h : Inv fs q owner w) (p : List String) {out : Except PyErr (Dict String Ref)} {w' : Shared C}
    (hr : Shared.get fs p w = (out, w')) : ∃ owner', Inv fs q owner' w' ∧ w'.sects = w.sects ∧
      (∀ c, out = .ok c → w'.confs.get? p = some c) := by
  rw [get_run] at hr
  cases ho : Shared.ownConf fs p w with
  | mk x w1 =>
    rw [ho] at hr
    obtain ⟨owner', hi, hs, hc, -⟩ := h.ownConf p ho
    cases x with
    | error e => cases hr; exact ⟨owner', hi, hs, fun c hc => by cases hc⟩
    | ok c =>
      simp only at hr
      split at hr
      · cases hr
        exact ⟨owner', hi, hs, fun c' hc' => by cases hc'; exact hc c rfl⟩
      · cases hr
        have hget := inherit_get? w1 hi.loc p c
        refine ⟨owner', hi.store p _ ?_ ?_, hs, fun c' hc' => by cases hc'; exact Dict.get?_set_self _ _ _⟩
        · intro k r hr
          rcases (hget k).2 r hr with h1 | ⟨s, h1⟩
          · exact hi.confs p c (hc c rfl) k r h1
          · exact ⟨(hi.sects s k r h1).1, .inr (hi.sects s k r h1).2⟩
        · intro hpq
          subst hpq
          obtain ⟨d, hd, hk⟩ := hi.own c (hc c rfl)
          refine ⟨d, hd, fun k hn => ?_⟩
          rw [(hget k).1 hn]
          exact hk k hn

/-- Changes of objects that are not those of `q`. -/
theorem Inv.changeAll {fs : SharedFiles C} {q : List String} {owner : Nat → Option (List String)}
    (c : Dict String Ref) (hc : ∀ k r, c.get? k = some r → owner r.1 ≠ some q) (chs : List (String × (C → C)))
    {w : Shared C} (h : Inv fs q owner w) :
    Inv fs q owner (Shared.changeAll c chs w) ∧ (Shared.changeAll c chs w).sects = w.sects := by
  induction chs generalizing w with
  | nil => exact ⟨h, rfl⟩
  | cons ch chs ih =>
    obtain ⟨k, f⟩ := ch
    rw [Shared.changeAll]
    cases hk : c.get? k with
    | none => exact ih h
    | some r =>
      have : Inv fs q owner (Shared.change r f w) := by
        refine ⟨h.loc, h.sects, h.confs, ?_⟩
        intro c' hc'
        obtain ⟨d, hd, hkk⟩ := h.own c' hc'
        refine ⟨d, hd, fun k' hn => ?_⟩
        obtain ⟨h1, h2⟩ := hkk k' hn
        refine ⟨?_, h2⟩
        rw [← h1]
        cases hr' : c'.get? k' with
        | none => rfl
        | some r' =>
          show (if r' = r then _ else w.heap r') = w.heap r'
          rw [if_neg]
          intro hrr
          subst hrr
          exact hc k r' hk (h2 r' hr')
      obtain ⟨h1, h2⟩ := ih this
      exact ⟨h1, h2⟩

section
variable [BEq C] [LawfulBEq C]

omit [LawfulBEq C] in
/-- One operation. -/
theorem Inv.exec {fs : SharedFiles C} {q : List String} {owner : Nat → Option (List String)} {w : Shared C}
    (h : Inv fs q owner w) (op : ShOp C) (hop : op.Spares q) :
    ∃ owner', Inv fs q owner' (op.exec fs w) ∧ (op.exec fs w).sects = w.sects := by
  cases op with
  | get p =>
    obtain ⟨o, h1, h2, -⟩ := h.get p (out := (Shared.get fs p w).1) (w' := (Shared.get fs p w).2) rfl
    exact ⟨o, h1, h2⟩
  | run p body =>
    show ∃ owner', Inv fs q owner' (Shared.run fs p body w).2 ∧ (Shared.run fs p body w).2.sects = w.sects
    unfold Shared.run
    rw [M.bind_run]
    cases hg : Shared.get fs p w with
    | mk x w1 =>
      obtain ⟨o, h1, h2, h3⟩ := h.get p hg
      cases x with
      | error e => exact ⟨o, h1, h2⟩
      | ok c =>
        simp only [M.modify_run]
        rcases hop with hp | hb
        · have := h1.changeAll c (fun k r hr => ?_) (body (fun k => (c.get? k).bind w1.heap))
          · exact ⟨o, this.1, by rw [this.2, h2]⟩
          · rcases (h1.confs p c (h3 c rfl) k r hr).2 with h4 | h4 <;> rw [h4]
            · intro h5; cases h5; exact hp rfl
            · intro h5; cases h5
        · rw [hb]
          exact ⟨o, h1, h2⟩
  | update p kw =>
    show ∃ owner', Inv fs q owner' ((Shared.make kw >>= fun v => Shared.update fs p v) w).2 ∧
      ((Shared.make kw >>= fun v => Shared.update fs p v) w).2.sects = w.sects
    have hm := h.make kw none
    have hmk : Shared.make kw w = (.ok (Shared.refsOf w.next kw), (Shared.make kw w).2) := rfl
    rw [M.bind_ok hmk]
    unfold Shared.update
    rw [M.bind_run]
    cases ho : Shared.ownConf fs p (Shared.make kw w).2 with
    | mk x w1 =>
      obtain ⟨o, hi, hs, hc, -, ho', hle⟩ := hm.ownConf p ho
      cases x with
      | error e => exact ⟨o, hi, hs⟩
      | ok c =>
        simp only
        rw [M.bind_ok (M.get_run w1)]
        split
        · refine ⟨o, hi.store p _ ?_ (fun hpq => absurd hpq hop), hs⟩
          intro k r hr
          rw [Dict.get?_update, refsOf_get?] at hr
          cases hk : kw.get? k with
          | none => rw [hk] at hr; exact hi.confs p c (hc c rfl) k r hr
          | some v =>
            rw [hk] at hr
            cases hr
            have hlt : w.next < (Shared.make kw w).2.next := Nat.lt_succ_self _
            refine ⟨Nat.lt_of_lt_of_le hlt hle, .inr ?_⟩
            rw [ho' _ hlt]
            exact if_pos rfl
        · exact ⟨o, hi, hs⟩
  | reset p =>
    show ∃ owner', Inv fs q owner' (Shared.reset fs p w).2 ∧ (Shared.reset fs p w).2.sects = w.sects
    unfold Shared.reset
    cases hd : fs.item p with
    | none => exact ⟨owner, h, rfl⟩
    | some d =>
      simp only
      have hm := h.make d (some p)
      have hmk : Shared.make d w = (.ok (Shared.refsOf w.next d), (Shared.make d w).2) := rfl
      rw [M.bind_ok hmk, M.bind_run]
      cases ho : Shared.ownConf fs p (Shared.make d w).2 with
      | mk x w1 =>
        obtain ⟨o, hi, hs, hc, hheap, ho', hle⟩ := hm.ownConf p ho
        cases x with
        | error e => exact ⟨o, hi, hs⟩
        | ok c =>
          simp only
          rw [M.bind_ok (M.get_run w1)]
          have hlt : w.next < (Shared.make d w).2.next := Nat.lt_succ_self _
          split
          · refine ⟨o, hi.store p _ ?_ ?_, hs⟩
            · intro k r hr
              rw [refsOf_get?] at hr
              cases hk : d.get? k with
              | none => rw [hk] at hr; cases hr
              | some v =>
                rw [hk] at hr
                cases hr
                refine ⟨Nat.lt_of_lt_of_le hlt hle, .inl ?_⟩
                rw [ho' _ hlt]
                exact if_pos rfl
            · intro hpq
              subst hpq
              refine ⟨d, hd, fun k _ => ?_⟩
              rw [refsOf_get?]
              constructor
              · cases hk : d.get? k with
                | none => rfl
                | some v =>
                  show w1.heap (w.next, k) = some v
                  rw [hheap _ hlt]
                  show (if w.next = w.next then d.get? k else _) = some v
                  rw [if_pos rfl, hk]
              · intro r hr
                cases hk : d.get? k with
                | none => rw [hk] at hr; cases hr
                | some v =>
                  rw [hk] at hr
                  cases hr
                  show o w.next = some p
                  rw [ho' _ hlt]
                  exact if_pos rfl
          · exact ⟨o, hi, hs⟩

omit [BEq C] [LawfulBEq C] in
theorem loadSects_inv {fs : SharedFiles C} {q : List String} (ss : List (List String)) {w : Shared C}
    (h : Inv fs q (fun _ => none) w) (hc : w.confs = Dict.empty) :
    Inv fs q (fun _ => none) (Shared.loadSects fs ss w).2 := by
  induction ss generalizing w with
  | nil => exact h
  | cons s ss ih =>
    rw [Shared.loadSects]
    have hmk : Shared.make (fs.sect s) w = (.ok (Shared.refsOf w.next (fs.sect s)), (Shared.make (fs.sect s) w).2) := rfl
    rw [M.bind_ok hmk, M.bind_ok (M.modify_run _ _)]
    apply ih
    · refine ⟨h.loc, ?_, ?_, ?_⟩
      · intro s' k r hr
        refine ⟨?_, rfl⟩
        unfold Shared.sectConf at hr
        simp only [Dict.get?_set] at hr
        split at hr
        · rw [Option.getD_some, refsOf_get?] at hr
          cases hk : (fs.sect s).get? k with
          | none => rw [hk] at hr; cases hr
          | some v => rw [hk] at hr; cases hr; exact Nat.lt_succ_self _
        · exact Nat.lt_succ_of_lt (h.sects s' k r hr).1
      · intro p c hc'
        rw [show (Shared.make (fs.sect s) w).2.confs = w.confs from rfl, hc] at hc'
        cases hc'
      · intro c hc'
        rw [show (Shared.make (fs.sect s) w).2.confs = w.confs from rfl, hc] at hc'
        cases hc'
    · exact hc

omit [BEq C] [LawfulBEq C] in
theorem loaded_inv (fs : SharedFiles C) (q : List String) (ss : List (List String)) :
    Inv fs q (fun _ => none) (sharedLoaded fs ss) := by
  apply loadSects_inv
  · refine ⟨rfl, ?_, ?_, ?_⟩
    · intro s k r hr; cases hr
    · intro p c hc; cases hc
    · intro c hc; cases hc
  · rfl

omit [LawfulBEq C] in
theorem after_inv {fs : SharedFiles C} {q : List String} (ops : List (ShOp C)) {owner : Nat → Option (List String)}
    {w : Shared C} (h : Inv fs q owner w) (hops : ∀ op ∈ ops, op.Spares q) :
    ∃ owner', Inv fs q owner' (ShOp.after fs w ops) ∧ (ShOp.after fs w ops).sects = w.sects := by
  unfold ShOp.after
  induction ops generalizing w owner with
  | nil => exact ⟨owner, h, rfl⟩
  | cons op ops ih =>
    obtain ⟨o, h1, h2⟩ := h.exec op (hops op List.mem_cons_self)
    obtain ⟨o', h3, h4⟩ := ih h1 (fun op' hop' => hops op' (List.mem_cons_of_mem _ hop'))
    exact ⟨o', h3, by rw [List.foldl_cons, h4, h2]⟩

/-- Any history: the configs of items have the names of their files. -/
structure Keyed (fs : SharedFiles C) (w : Shared C) : Prop where
  loc : w.loc = Dict.empty
  keys : ∀ p c, w.confs.get? p = some c → ∀ d, fs.item p = some d → ∀ k, k ∈ d.keys → k ∈ c.keys

omit [BEq C] [LawfulBEq C] in
theorem Keyed.store {fs : SharedFiles C} {w : Shared C} (h : Keyed fs w) (p : List String) (c : Dict String Ref)
    (hc : ∀ d, fs.item p = some d → ∀ k, k ∈ d.keys → k ∈ c.keys) :
    Keyed fs { w with confs := w.confs.set p c } := by
  refine ⟨h.loc, ?_⟩
  intro p' c' hc'
  simp only [Dict.get?_set] at hc'
  split at hc'
  · rename_i hp
    cases hc'
    subst hp
    exact hc
  · exact h.keys p' c' hc'

omit [BEq C] [LawfulBEq C] in
theorem refsOf_keys (n : Nat) (d : Dict String C) : (Shared.refsOf n d).keys = d.keys := by
  unfold Shared.refsOf Dict.keys
  rw [List.map_map]
  rfl

omit [BEq C] [LawfulBEq C] in
theorem Keyed.ownConf {fs : SharedFiles C} {w : Shared C} (h : Keyed fs w) (p : List String)
    {out : Except PyErr (Dict String Ref)} {w' : Shared C} (hr : Shared.ownConf fs p w = (out, w')) :
    Keyed fs w' ∧ (∀ c, out = .ok c → w'.confs.get? p = some c) := by
  rw [ownConf_run] at hr
  cases hc : w.confs.get? p with
  | some c =>
    rw [hc] at hr
    cases hr
    exact ⟨h, fun c' hc' => by cases hc'; exact hc⟩
  | none =>
    rw [hc] at hr
    cases hd : fs.item p with
    | none =>
      rw [hd] at hr
      cases hr
      exact ⟨h, fun c' hc' => by cases hc'⟩
    | some d =>
      rw [hd] at hr
      cases hr
      refine ⟨Keyed.store (w := (Shared.make d w).2) ⟨h.loc, h.keys⟩ p _ ?_, fun c' hc' => ?_⟩
      · intro d' hd' k hk
        rw [hd] at hd'
        cases hd'
        rw [refsOf_keys]
        exact hk
      · cases hc'
        exact Dict.get?_set_self _ _ _

omit [BEq C] [LawfulBEq C] in
theorem inherit_keys (w : Shared C) (p : List String) (c : Dict String Ref) (k : String) (h : k ∈ c.keys) :
    k ∈ (w.inherit p c).keys := by
  unfold Shared.inherit
  rw [Dict.mem_keys_update]
  left
  generalize Shared.around p = ss
  induction ss generalizing c with
  | nil => exact h
  | cons s ss ih =>
    rw [List.foldl_cons]
    exact ih _ ((Dict.mem_keys_update _ _ _).2 (.inl h))

omit [BEq C] [LawfulBEq C] in
theorem Keyed.get {fs : SharedFiles C} {w : Shared C} (h : Keyed fs w) (p : List String)
    {out : Except PyErr (Dict String Ref)} {w' : Shared C} (hr : Shared.get fs p w = (out, w')) : Keyed fs w' := by
  rw [get_run] at hr
  cases ho : Shared.ownConf fs p w with
  | mk x w1 =>
    rw [ho] at hr
    obtain ⟨hi, hc⟩ := h.ownConf p ho
    cases x with
    | error e => cases hr; exact hi
    | ok c =>
      simp only at hr
      split at hr
      · cases hr; exact hi
      · cases hr
        exact hi.store p _ (fun d hd k hk => inherit_keys _ _ _ _ (hi.keys p c (hc c rfl) d hd k hk))

omit [BEq C] [LawfulBEq C] in
theorem changeAll_rest (c : Dict String Ref) (chs : List (String × (C → C))) (w : Shared C) :
    (Shared.changeAll c chs w).confs = w.confs ∧ (Shared.changeAll c chs w).loc = w.loc ∧
    (Shared.changeAll c chs w).sects = w.sects := by
  induction chs generalizing w with
  | nil => exact ⟨rfl, rfl, rfl⟩
  | cons ch chs ih =>
    obtain ⟨k, f⟩ := ch
    rw [Shared.changeAll]
    cases c.get? k with
    | none => exact ih w
    | some r => exact ih _

omit [LawfulBEq C] in
theorem Keyed.exec {fs : SharedFiles C} {w : Shared C} (h : Keyed fs w) (op : ShOp C) : Keyed fs (op.exec fs w) := by
  cases op with
  | get p => exact h.get p (out := (Shared.get fs p w).1) rfl
  | run p body =>
    show Keyed fs (Shared.run fs p body w).2
    unfold Shared.run
    rw [M.bind_run]
    cases hg : Shared.get fs p w with
    | mk x w1 =>
      have h1 := h.get p hg
      cases x with
      | error e => exact h1
      | ok c =>
        simp only [M.modify_run]
        obtain ⟨e1, e2, -⟩ := changeAll_rest c (body (fun k => (c.get? k).bind w1.heap)) w1
        exact ⟨by rw [e2]; exact h1.loc, by rw [e1]; exact h1.keys⟩
  | update p kw =>
    show Keyed fs ((Shared.make kw >>= fun v => Shared.update fs p v) w).2
    have hmk : Shared.make kw w = (.ok (Shared.refsOf w.next kw), (Shared.make kw w).2) := rfl
    have hm : Keyed fs (Shared.make kw w).2 := ⟨h.loc, h.keys⟩
    rw [M.bind_ok hmk]
    unfold Shared.update
    rw [M.bind_run]
    cases ho : Shared.ownConf fs p (Shared.make kw w).2 with
    | mk x w1 =>
      obtain ⟨hi, hc⟩ := hm.ownConf p ho
      cases x with
      | error e => exact hi
      | ok c =>
        simp only
        rw [M.bind_ok (M.get_run w1)]
        split
        · exact hi.store p _ (fun d hd k hk =>
            (Dict.mem_keys_update _ _ _).2 (.inl (hi.keys p c (hc c rfl) d hd k hk)))
        · exact hi
  | reset p =>
    show Keyed fs (Shared.reset fs p w).2
    unfold Shared.reset
    cases hd : fs.item p with
    | none => exact h
    | some d =>
      simp only
      have hmk : Shared.make d w = (.ok (Shared.refsOf w.next d), (Shared.make d w).2) := rfl
      have hm : Keyed fs (Shared.make d w).2 := ⟨h.loc, h.keys⟩
      rw [M.bind_ok hmk, M.bind_run]
      cases ho : Shared.ownConf fs p (Shared.make d w).2 with
      | mk x w1 =>
        obtain ⟨hi, hc⟩ := hm.ownConf p ho
        cases x with
        | error e => exact hi
        | ok c =>
          simp only
          rw [M.bind_ok (M.get_run w1)]
          split
          · exact hi.store p _ (fun d' hd' k hk => by rw [hd] at hd'; cases hd'; rw [refsOf_keys]; exact hk)
          · exact hi

omit [LawfulBEq C] in
theorem Keyed.after {fs : SharedFiles C} (ops : List (ShOp C)) {w : Shared C} (h : Keyed fs w) :
    Keyed fs (ShOp.after fs w ops) := by
  unfold ShOp.after
  induction ops generalizing w with
  | nil => exact h
  | cons op ops ih => exact ih (h.exec op)

omit [BEq C] [LawfulBEq C] in
theorem loaded_keyed (fs : SharedFiles C) (ss : List (List String)) : Keyed fs (sharedLoaded fs ss) := by
  have h := loaded_inv fs [] ss
  refine ⟨h.loc, ?_⟩
  have : (sharedLoaded fs ss).confs = Dict.empty := by
    unfold sharedLoaded
    generalize hw : (Shared.empty : Shared C) = w
    have hc : w.confs = Dict.empty := by rw [← hw]; rfl
    clear hw h
    induction ss generalizing w with
    | nil => exact hc
    | cons s ss ih =>
      rw [Shared.loadSects]
      have hmk : Shared.make (fs.sect s) w = (.ok (Shared.refsOf w.next (fs.sect s)), (Shared.make (fs.sect s) w).2) := rfl
      rw [M.bind_ok hmk, M.bind_ok (M.modify_run _ _)]
      exact ih _ hc
  rw [this]
  intro p c hc
  cases hc

omit [BEq C] [LawfulBEq C] in
/-- What is shown of a loaded config. -/
theorem shows_loaded {fs : SharedFiles C} {w : Shared C} {q : List String} {c : Dict String Ref}
    (hc : w.confs.get? q = some c) (hl : w.loc = Dict.empty) {k : String} (hn : NotAround w q k) :
    sharedShows fs w q k = (c.get? k).bind w.heap := by
  unfold sharedShows
  rw [get_run, ownConf_run, hc]
  simp only
  split
  · rename_i heq
    split at heq
    · cases heq; rfl
    · cases heq
      rw [(inherit_get? w hl q c k).1 hn]
  · rename_i heq
    split at heq <;> cases heq

omit [BEq C] [LawfulBEq C] in
/-- What is inherited does not depend on what is there. -/
theorem inherit_or (w : Shared C) (p : List String) (c : Dict String Ref) (k : String) :
    (w.inherit p c).get? k = ((w.inherit p Dict.empty).get? k).or (c.get? k) := by
  unfold Shared.inherit
  rw [Dict.get?_update, Dict.get?_update]
  have h : ∀ (ss : List (List String)) (c : Dict String Ref),
      (ss.foldl (fun c s => c.update (w.sectConf s)) c).get? k =
      ((ss.foldl (fun c s => c.update (w.sectConf s)) Dict.empty).get? k).or (c.get? k) := by
    intro ss
    induction ss with
    | nil => intro c; rfl
    | cons s ss ih =>
      intro c
      rw [List.foldl_cons, List.foldl_cons, ih, ih (Dict.empty.update _), Dict.get?_update, Dict.get?_update]
      cases (List.foldl (fun c s => c.update (w.sectConf s)) Dict.empty ss).get? k <;>
        cases (w.sectConf s).get? k <;> rfl
  rw [h]
  cases w.loc.get? k <;> rfl

omit [BEq C] [LawfulBEq C] in
theorem inherit_twice (w : Shared C) (p : List String) (c : Dict String Ref) (k : String) :
    (w.inherit p (w.inherit p c)).get? k = (w.inherit p c).get? k := by
  rw [inherit_or, inherit_or w p c]
  cases (w.inherit p Dict.empty).get? k <;> rfl

omit [BEq C] [LawfulBEq C] in
/-- Sections and the local config are all that is inherited. -/
theorem inherit_congr {w w' : Shared C} (hs : w'.sects = w.sects) (hl : w'.loc = w.loc) (p : List String)
    (c : Dict String Ref) : w'.inherit p c = w.inherit p c := by
  unfold Shared.inherit Shared.sectConf
  rw [hs, hl]

omit [BEq C] [LawfulBEq C] in
/-- What is shown of an item whose config is loaded and not empty. -/
theorem shows_inherit {fs : SharedFiles C} {w : Shared C} {q : List String} {d : Dict String Ref} (k : String)
    (hq : w.confs.get? q = some d) (hd : d.items ≠ []) :
    sharedShows fs w q k = ((w.inherit q d).get? k).bind w.heap := by
  unfold sharedShows
  rw [get_run, ownConf_run, hq]
  have : d.items.isEmpty = false := by
    cases h : d.items with
    | nil => exact absurd h hd
    | cons _ _ => rfl
  simp only [this]
  rfl

omit [BEq C] [LawfulBEq C] in
theorem ne_nil_of_get? {c : Dict String Ref} {k : String} {r : Ref} (h : c.get? k = some r) : c.items ≠ [] := by
  intro h0
  have := (Dict.mem_items_iff _ _ _).2 h
  rw [h0] at this
  cases this

end
end Sh

/-! ### Theorems -/

section
variable [BEq C]

/-- C96.  A value that an item's own file assigns, and no section around it, is not changed by
what other items do: not by running them, whatever their functions do to their arguments, nor by
updating or resetting them. -/
theorem C96_isolated (fs : SharedFiles C) (ss : List (List String)) (q : List String) (ops : List (ShOp C))
    (hops : ∀ op ∈ ops, op.Spares q) (k : String) (hn : NotAround (sharedLoaded fs ss) q k) :
    sharedShows fs (ShOp.after fs (sharedLoaded fs ss) ops) q k = (fs.item q).bind (fun d => d.get? k) := by
  obtain ⟨o, hi, hs⟩ := Sh.after_inv ops (Sh.loaded_inv fs q ss) hops
  generalize ShOp.after fs (sharedLoaded fs ss) ops = w at hi hs
  have hn' : NotAround w q k := by
    unfold NotAround Shared.sectConf at hn ⊢
    rw [hs]
    exact hn
  cases hg : Shared.get fs q w with
  | mk out w' =>
    obtain ⟨o', hi', hs', hc'⟩ := hi.get q hg
    unfold sharedShows
    rw [hg]
    cases out with
    | ok c =>
      obtain ⟨d, hd, hk⟩ := hi'.own c (hc' c rfl)
      have hn'' : NotAround w' q k := by
        unfold NotAround Shared.sectConf at hn' ⊢
        rw [hs']
        exact hn'
      rw [hd]
      exact (hk k hn'').1
    | error e =>
      rw [Sh.get_run, Sh.ownConf_run] at hg
      cases hc : w.confs.get? q with
      | some c =>
        rw [hc] at hg
        simp only at hg
        split at hg <;> cases hg
      | none =>
        rw [hc] at hg
        cases hd : fs.item q with
        | none => rfl
        | some d =>
          rw [hd] at hg
          simp only at hg
          split at hg <;> cases hg

/-- C96.  Resetting an item gives the values of its file back, whatever was done before, for the
names that no section around it has. -/
theorem C96_reset [LawfulBEq C] (fs : SharedFiles C) (ss : List (List String)) (q : List String) (ops : List (ShOp C))
    (k : String) (d : Dict String C) (v : C) (hd : fs.item q = some d) (hv : d.get? k = some v)
    (hn : NotAround (ShOp.after fs (sharedLoaded fs ss) ops) q k) :
    sharedShows fs ((ShOp.reset q).exec fs (ShOp.after fs (sharedLoaded fs ss) ops)) q k = some v := by
  have hk := (Sh.loaded_keyed fs ss).after ops
  generalize ShOp.after fs (sharedLoaded fs ss) ops = w at hk hn
  show sharedShows fs (Shared.reset fs q w).2 q k = some v
  have hmk : Shared.make d w = (.ok (Shared.refsOf w.next d), (Shared.make d w).2) := rfl
  have hm : Sh.Keyed fs (Shared.make d w).2 := ⟨hk.loc, hk.keys⟩
  unfold Shared.reset
  rw [hd]
  simp only
  rw [M.bind_ok hmk, M.bind_run]
  have hnew : (Shared.make d w).2.heap (w.next, k) = some v := by
    show (if w.next = w.next then d.get? k else _) = some v
    rw [if_pos rfl, hv]
  cases ho : Shared.ownConf fs q (Shared.make d w).2 with
  | mk x w1 =>
    obtain ⟨hi, hc⟩ := hm.ownConf q ho
    have hheap : w1.heap (w.next, k) = some v ∧ w1.sects = w.sects ∧ ∃ c, x = .ok c := by
      rw [Sh.ownConf_run] at ho
      cases hq : (Shared.make d w).2.confs.get? q with
      | some c => rw [hq] at ho; cases ho; exact ⟨hnew, rfl, _, rfl⟩
      | none =>
        rw [hq, hd] at ho
        cases ho
        refine ⟨?_, rfl, _, rfl⟩
        show (if w.next = (Shared.make d w).2.next then _ else (Shared.make d w).2.heap (w.next, k)) = some v
        have hne : w.next ≠ (Shared.make d w).2.next := Nat.ne_of_lt (Nat.lt_succ_self _)
        simp only [hne, if_false]
        exact hnew
    obtain ⟨h1, h2, c, rfl⟩ := hheap
    have hn1 : NotAround w1 q k := by
      unfold NotAround Shared.sectConf at hn ⊢
      rw [h2]
      exact hn
    simp only
    rw [M.bind_ok (M.get_run w1)]
    split
    · rename_i hw
      rw [M.modify_run]
      have hs := Sh.shows_loaded (fs := fs) (w := { w1 with confs := w1.confs.set q (Shared.refsOf w.next d) })
        (Dict.get?_set_self _ _ _) hi.loc (k := k) hn1
      refine hs.trans ?_
      rw [Sh.refsOf_get?, hv]
      exact h1
    · rename_i hw
      show sharedShows fs w1 q k = some v
      rw [Sh.shows_loaded (hc c rfl) hi.loc hn1]
      obtain ⟨r, hr⟩ := Option.isSome_iff_exists.1 ((Dict.mem_keys_iff _ _).1
        (hi.keys q c (hc c rfl) d hd k ((Dict.mem_keys_iff _ _).2 (by rw [hv]; rfl))))
      rw [hr]
      show w1.heap r = some v
      unfold Shared.wouldUpdate at hw
      rw [Bool.not_eq_true, List.any_eq_false] at hw
      have := hw (k, (w.next, k)) ((Dict.mem_items_iff _ _ _).2 (by rw [Sh.refsOf_get?, hv]; rfl))
      simp only [hr, Bool.not_eq_true', Bool.not_eq_false, beq_iff_eq] at this
      rw [this, h1]

/-- C96 fails for values that items share, and for the item itself (`q = p`): what a function does to
an argument in place is in the active config of every item that has the same object there. -/
theorem C96_seen_violated (fs : SharedFiles C) (w : Shared C) (p q : List String) (c d : Dict String Ref) (k : String)
    (r : Ref) (x : C) (f : C → C) (hp : w.confs.get? p = some c) (hq : w.confs.get? q = some d)
    (hc : (w.inherit p c).get? k = some r) (hd : (w.inherit q d).get? k = some r) (hc0 : c.items ≠ [])
    (hd0 : d.items ≠ []) (hx : w.heap r = some x) :
    sharedShows fs ((ShOp.run p (fun _ => [(k, f)])).exec fs w) q k = some (f x) := by
  have hc1 : c.items.isEmpty = false := by
    cases h : c.items with
    | nil => exact absurd h hc0
    | cons _ _ => rfl
  have hg : Shared.get fs p w = (.ok (w.inherit p c), { w with confs := w.confs.set p (w.inherit p c) }) := by
    rw [Sh.get_run, Sh.ownConf_run, hp]
    simp only [hc1]
    rfl
  have hr : (ShOp.run p (fun _ => [(k, f)])).exec fs w =
      Shared.change r f { w with confs := w.confs.set p (w.inherit p c) } := by
    show (Shared.run fs p (fun _ => [(k, f)]) w).2 = _
    unfold Shared.run
    rw [M.bind_ok hg, M.modify_run]
    simp only [Shared.changeAll, hc]
  rw [hr]
  have hh : (Shared.change r f { w with confs := w.confs.set p (w.inherit p c) }).heap r = some (f x) := by
    show (if r = r then (w.heap r).map f else w.heap r) = _
    rw [if_pos rfl, hx]
    rfl
  have hi : ∀ p' c', (Shared.change r f { w with confs := w.confs.set p (w.inherit p c) }).inherit p' c' =
      w.inherit p' c' := fun p' c' => Sh.inherit_congr (w := w) rfl rfl p' c'
  by_cases hpq : p = q
  · subst hpq
    rw [Sh.shows_inherit k (Dict.get?_set_self _ _ _) (Sh.ne_nil_of_get? hc),
      hi, Sh.inherit_twice, hc]
    exact hh
  · have hq' : (Shared.change r f { w with confs := w.confs.set p (w.inherit p c) }).confs.get? q = some d := by
      show (w.confs.set p (w.inherit p c)).get? q = some d
      rw [Dict.get?_set, if_neg hpq, hq]
    rw [Sh.shows_inherit k hq' hd0, hi, hd]
    exact hh

/-- C96: an update with the object that is in the config already is never seen as one: contents are
compared, and those of one object are the same whatever was done to it. -/
theorem C96_unseen_violated [LawfulBEq C] (fs : SharedFiles C) (w : Shared C) (p : List String) (c : Dict String Ref)
    (k : String) (r : Ref) (f : C → C) (hp : w.confs.get? p = some c) (hc : c.get? k = some r) :
    Shared.update fs p (Dict.empty.set k r) (Shared.change r f w) = (.ok (), Shared.change r f w) := by
  unfold Shared.update
  have ho : Shared.ownConf fs p (Shared.change r f w) = (.ok c, Shared.change r f w) := by
    rw [Sh.ownConf_run]
    show (match w.confs.get? p with | some c => _ | none => _) = _
    rw [hp]
  rw [M.bind_ok ho, M.bind_ok (M.get_run _)]
  have hw : (Shared.change r f w).wouldUpdate c (Dict.empty.set k r) = false := by
    unfold Shared.wouldUpdate
    rw [List.any_eq_false]
    intro e he
    obtain ⟨k', r'⟩ := e
    have := (Dict.mem_items_iff _ _ _).1 he
    rw [Dict.get?_set] at this
    split at this
    · rename_i hk
      cases this
      subst hk
      simp [hc]
    · cases this
  rw [hw]
  rfl

/-- C96: an update with names that the config does not have does not put objects of the caller into it. -/
theorem C96_unknown (fs : SharedFiles C) (w w' : Shared C) (p : List String) (c kw : Dict String Ref)
    (h : Shared.ownConf fs p w = (.ok c, w')) (hk : ∀ k ∈ kw.keys, c.get? k = none) : Shared.update fs p kw w = (.ok (), w') := by
  unfold Shared.update
  rw [M.bind_ok h, M.bind_ok (M.get_run _)]
  have hw : w'.wouldUpdate c kw = false := by
    unfold Shared.wouldUpdate
    rw [List.any_eq_false]
    intro e he
    rw [hk e.1 (List.mem_map.2 ⟨e, he, rfl⟩)]
    simp
  rw [hw]
  rfl

end

/-! ### Examples -/

/-- A project with `a` and `b`, that both have the names `own` and `all`; the project has `all`. -/
def shFiles : SharedFiles (List Nat) where
  item p := if p = ["a"] ∨ p = ["b"] then some ((Dict.empty.set "own" [1]).set "all" []) else none
  sect s := if s = [] then Dict.empty.set "all" [5] else Dict.empty

/-- A function that appends to both of its arguments. -/
def shRun : ShOp (List Nat) := .run ["a"] (fun _ => [("own", (· ++ [7])), ("all", (· ++ [8]))])

/-- C96: the item that was run has the changed value in its next run; its file is as it was, and the item with the
same values in its own file is not changed. -/
theorem C96_self_violated :
    sharedShows shFiles (ShOp.after shFiles (sharedLoaded shFiles [[]]) [shRun]) ["a"] "own" = some [1, 7] ∧
    sharedShows shFiles (sharedLoaded shFiles [[]]) ["a"] "own" = some [1] ∧
    sharedShows shFiles (ShOp.after shFiles (sharedLoaded shFiles [[]]) [shRun]) ["b"] "own" = some [1] := by
  decide +kernel

/-- C96: what comes from the section is changed for the other item, and stays changed when the items are reset. -/
theorem C96_section_violated :
    sharedShows shFiles (ShOp.after shFiles (sharedLoaded shFiles [[]]) [shRun]) ["b"] "all" = some [5, 8] ∧
    sharedShows shFiles (ShOp.after shFiles (sharedLoaded shFiles [[]]) [shRun, .reset ["a"], .reset ["b"]]) ["b"] "all" =
      some [5, 8] ∧
    sharedShows shFiles (ShOp.after shFiles (sharedLoaded shFiles [[]]) [shRun, .reset ["a"]]) ["a"] "own" = some [1] := by
  decide +kernel

/-- Non-vacuity of `C96_isolated` and `C96_reset`. -/
example : NotAround (sharedLoaded shFiles [[]]) ["b"] "own" ∧ shRun.Spares ["b"] ∧ ¬ shRun.Spares ["a"] ∧
    ¬ NotAround (sharedLoaded shFiles [[]]) ["b"] "all" := by
  refine ⟨?_, .inl (by decide), ?_, ?_⟩
  · intro s hs
    have : s = [] := by simpa [Shared.around] using hs
    subst this
    decide +kernel
  · rintro (h | h)
    · exact h rfl
    · exact absurd (h (fun _ => none)) (by simp)
  · intro h
    exact absurd (h [] (by simp [Shared.around])) (by decide +kernel)

/-- Non-vacuity of `C96_seen_violated` with two items. -/
example : ∃ c d r, let w := ShOp.after shFiles (sharedLoaded shFiles [[]]) [.get ["a"], .get ["b"]]
    w.confs.get? ["a"] = some c ∧ w.confs.get? ["b"] = some d ∧ (w.inherit ["a"] c).get? "all" = some r ∧
    (w.inherit ["b"] d).get? "all" = some r ∧ w.heap r = some [5] :=
  ⟨_, _, _, rfl, rfl, rfl, rfl, rfl⟩

end Verif.Props
